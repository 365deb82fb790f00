import Verif.Model.Release
import Verif.Model.History
/-!
# Specification: bookkeeping of the data

Which data a forest holds, which data a call brings in, and which data leave it in a call: by being given to the hook of a
removal (`remove` drops them instead), or by being overwritten through `data_mut`.
-/
set_option autoImplicit false

namespace Treena
variable {T : Type}

/-- The data of the live nodes, by ID. -/
def Forest.held (f : Forest T) : List T := f.data.filterMap fun o => o

/-- A hook that writes down what it is given, and otherwise does what `hook` does. -/
def watched {S : Type} (hook : Forest.Hook S T) : Forest.Hook (S × List T) T := fun s d =>
  match hook s.1 d with
  | .ok s' => .ok (s', s.2 ++ [d])
  | .error s' => .error (s', s.2 ++ [d])

mutual
/-- The data offered by a call on a `NestTreeBuilder`. -/
def NestCall.offers : NestCall T → List T
  | .addChild d => [d]
  | .createTree d cs => d :: NestCall.offersL cs
  | .boom => []
/-- The data offered by calls on a `NestTreeBuilder`. -/
def NestCall.offersL : List (NestCall T) → List T
  | [] => []
  | c :: cs => c.offers ++ NestCall.offersL cs
end

/-- The datum offered by a call on a `ChainTreeBuilder`. -/
def ChainCall.offers : ChainCall T → List T
  | .child d => [d]
  | .sibling d => [d]
  | .parent => []
  | .tryParent => []

namespace Op

/-- The data the caller passes to a call, in order. -/
def offers : Op T → List T
  | .createRoot d => [d]
  | .createInsert d _ => [d]
  | .setData _ v => [v]
  | .nodeCreate _ d _ => [d]
  | .nest d calls => d :: NestCall.offersL calls
  | .chain d calls => d :: calls.flatMap ChainCall.offers
  | _ => []

/-- The data a call brings into the forest: those of the new nodes, or the datum written. -/
def entered (cap : Nat) (f : Forest T) (op : Op T) : List T :=
  match op with
  | .setData x v => if f.isAlive x then [v] else []
  | op => ((op.step cap f).data.drop f.data.length).filterMap fun o => o

/-- The data that leave the forest in a call: given to the hook, dropped by `remove`, or overwritten. -/
def left (f : Forest T) : Op T → List T
  | .setData x _ => (f.getData x).toList
  | .remove x => (Forest.removeHooked (watched fun s _ => .ok s) x (f, ((), []))).state.2.2
  | .removeHooked _ hook c x => (Forest.removeHooked (watched hook) x (f, (c, []))).state.2.2
  | .removeHookedPanicSafe _ hook c x => (Forest.removeHookedPanicSafe (watched hook) x (f, (c, []))).state.2.2
  | _ => []

/-- All data that entered, in the course of a history. -/
def allEntered (cap : Nat) : Forest T → List (Op T) → List T
  | _, [] => []
  | f, op :: ops => op.entered cap f ++ allEntered cap (op.step cap f) ops

/-- All data that left, in the course of a history. -/
def allLeft (cap : Nat) : Forest T → List (Op T) → List T
  | _, [] => []
  | f, op :: ops => op.left f ++ allLeft cap (op.step cap f) ops

end Op

namespace Release

/-- As `Op.left`, in a release build. -/
def left (f : Forest T) : Op T → List T
  | .remove x => (Release.Forest.removeHooked (watched fun s _ => .ok s) x (f, ((), []))).state.2.2
  | .removeHooked _ hook c x => (Release.Forest.removeHooked (watched hook) x (f, (c, []))).state.2.2
  | .removeHookedPanicSafe _ hook c x => (Release.Forest.removeHookedPanicSafe (watched hook) x (f, (c, []))).state.2.2
  | op => op.left f

/-- As `Op.entered`, in a release build. -/
def entered (cap : Nat) (f : Forest T) (op : Op T) : List T :=
  match op with
  | .setData x v => if f.isAlive x then [v] else []
  | op => ((step cap f op).data.drop f.data.length).filterMap fun o => o

/-- As `Op.allEntered`. -/
def allEntered (cap : Nat) : Forest T → List (Op T) → List T
  | _, [] => []
  | f, op :: ops => entered cap f op ++ allEntered cap (step cap f op) ops

/-- As `Op.allLeft`. -/
def allLeft (cap : Nat) : Forest T → List (Op T) → List T
  | _, [] => []
  | f, op :: ops => left f op ++ allLeft cap (step cap f op) ops

end Release

/-- What happens to the data of `f` in a removal that gives `l` to its hook: the data of the different live nodes `K` are
given to the hook, one after the other, and are gone; the other data stay. -/
def HandedOver (f f' : Forest T) (l : List T) : Prop :=
  ∃ K : List (Nat × T), (K.map (·.1)).Nodup ∧ (∀ k ∈ K, f.getData k.1 = some k.2) ∧ l = K.map (·.2) ∧
    f'.data.length = f.data.length ∧
    ∀ y, f'.getData y = if y ∈ K.map (·.1) then none else f.getData y

end Treena
