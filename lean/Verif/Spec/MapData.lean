import Verif.Model.History
/-!
# Specification: the same forest with other data

`f.mapData g` is `f` with every datum `d` replaced by `g d`; `Op.Same g op op'` says that `op'` is the call `op`
with its data replaced in the same way. -/
set_option autoImplicit false

namespace Treena
variable {T U : Type}

/-- Replace all data by their image under `g`. -/
def Forest.mapData (g : T → U) (f : Forest T) : Forest U := ⟨f.hier, f.data.map (Option.map g)⟩

mutual
/-- The same calls with other data. -/
def NestCall.mapData (g : T → U) : NestCall T → NestCall U
  | .addChild d => .addChild (g d)
  | .createTree d cs => .createTree (g d) (NestCall.mapDataL g cs)
  | .boom => .boom
/-- The same calls with other data. -/
def NestCall.mapDataL (g : T → U) : List (NestCall T) → List (NestCall U)
  | [] => []
  | c :: cs => c.mapData g :: NestCall.mapDataL g cs
end

/-- The same call with other data. -/
def ChainCall.mapData (g : T → U) : ChainCall T → ChainCall U
  | .child d => .child (g d)
  | .sibling d => .sibling (g d)
  | .parent => .parent
  | .tryParent => .tryParent

/-- The second call is the first one with data replaced: hooks react to `g d` as the original ones to `d`, cloning
commutes with `g`. -/
inductive Op.Same (g : T → U) : Op T → Op U → Prop where
  | createRoot (d : T) : Op.Same g (.createRoot d) (.createRoot (g d))
  | createInsert (d : T) (dest : InsertAs) : Op.Same g (.createInsert d dest) (.createInsert (g d) dest)
  | setData (x : Nat) (v : T) : Op.Same g (.setData x v) (.setData x (g v))
  | insert (x : Nat) (dest : InsertAs) : Op.Same g (.insert x dest) (.insert x dest)
  | detach (x : Nat) : Op.Same g (.detach x) (.detach x)
  | detachSingle (x : Nat) : Op.Same g (.detachSingle x) (.detachSingle x)
  | remove (x : Nat) : Op.Same g (.remove x) (.remove x)
  | removeHooked {S : Type} (hook : Forest.Hook S T) (hook' : Forest.Hook S U) (c : S) (x : Nat)
      (h : ∀ s d, hook' s (g d) = hook s d) : Op.Same g (.removeHooked S hook c x) (.removeHooked S hook' c x)
  | removeHookedPanicSafe {S : Type} (hook : Forest.Hook S T) (hook' : Forest.Hook S U) (c : S) (x : Nat)
      (h : ∀ s d, hook' s (g d) = hook s d) :
      Op.Same g (.removeHookedPanicSafe S hook c x) (.removeHookedPanicSafe S hook' c x)
  | cloneLocal {S : Type} (cl : T → Option T) (cl' : U → Option U) (hook : Forest.MapHook S) (c : S) (x : Nat)
      (h : ∀ d, cl' (g d) = (cl d).map g) : Op.Same g (.cloneLocal S cl hook c x) (.cloneLocal S cl' hook c x)
  | cloneForeign {S : Type} (cl : T → Option T) (cl' : U → Option U) (hook : Forest.MapHook S) (c : S) (fsrc : Forest T) (x : Nat)
      (h : ∀ d, cl' (g d) = (cl d).map g) :
      Op.Same g (.cloneForeign S cl hook c fsrc x) (.cloneForeign S cl' hook c (fsrc.mapData g) x)
  | nodeCreate (self : Nat) (d : T) (dest : AdoptAs) :
      Op.Same g (.nodeCreate self d dest) (.nodeCreate self (g d) dest)
  | tryAdopt (self x : Nat) (dest : AdoptAs) : Op.Same g (.tryAdopt self x dest) (.tryAdopt self x dest)
  | adopt (self x : Nat) (dest : AdoptAs) : Op.Same g (.adopt self x dest) (.adopt self x dest)
  | nest (d : T) (calls : List (NestCall T)) :
      Op.Same g (.nest d calls) (.nest (g d) (NestCall.mapDataL g calls))
  | chain (d : T) (calls : List (ChainCall T)) :
      Op.Same g (.chain d calls) (.chain (g d) (calls.map (ChainCall.mapData g)))

/-- Two histories, call by call the same up to data. -/
inductive SameHistory (g : T → U) : List (Op T) → List (Op U) → Prop where
  | nil : SameHistory g [] []
  | cons {op : Op T} {op' : Op U} {ops : List (Op T)} {ops' : List (Op U)} (h : Op.Same g op op')
      (t : SameHistory g ops ops') : SameHistory g (op :: ops) (op' :: ops')

end Treena
