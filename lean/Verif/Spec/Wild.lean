import Verif.Spec.Builder
import Verif.Model.Wild
/-!
# Specification: builders in the hands of arbitrary closures
-/
set_option autoImplicit false

namespace Treena
variable {T : Type}

/-- The forest `g` of shape `s'` is the forest `f` of shape `s` plus new nodes, which may be anywhere: alone, below each other, or among
the children of old nodes.  The old nodes keep their data, their parents and the order of their old children. -/
structure Sown (f : Forest T) (s : Shape) (g : Forest T) (s' : Shape) : Prop where
  models : Models g s'
  size : s.size ≤ s'.size
  alive : ∀ x, x < s.size → s'.alive x = s.alive x
  data : ∀ x, x < s.size → g.getData x = f.getData x
  parent : ∀ x, x < s.size → s'.parent x = s.parent x
  kids : ∀ x, x < s.size → (s'.kids x).filter (· < s.size) = s.kids x
  fresh : ∀ x, s.size ≤ x → x < s'.size → s'.alive x = true

namespace WildCall

mutual
/-- The builder is not exchanged with another one. -/
def steady : WildCall T → Bool
  | .addChild _ => true
  | .createTree _ cs => steadyL cs
  | .boom => true
  | .caught cs => steadyL cs
  | .swap => false
def steadyL : List (WildCall T) → Bool
  | [] => true
  | c :: cs => steady c && steadyL cs
end

/-- What calls do, written down as a list: the nodes made, each with its parent and its datum; then the node to which the next child will be
added and the next ID; then the panic, if there is one. -/
structure Log (T : Type) where
  made : List (Nat × T)
  pen : Nat
  next : Nat
  panic : Option Fail

mutual
/-- A call, when children are added to the node `p` and the next ID is `n`.  `create_tree` moves the pen to the new node and, *if its closure
returns*, back to `p`. -/
def log (cap p n : Nat) : WildCall T → Log T
  | .addChild d => if n < cap then ⟨[(p, d)], p, n + 1, none⟩ else ⟨[], p, n, some overflow⟩
  | .createTree d cs =>
    if n < cap then
      let r := logL cap n (n + 1) cs
      ⟨(p, d) :: r.made, if r.panic.isNone then p else r.pen, r.next, r.panic⟩
    else ⟨[], p, n, some overflow⟩
  | .boom => ⟨[], p, n, some NestCall.userPanic⟩
  | .caught cs => { logL cap p n cs with panic := none }
  | .swap => ⟨[], p, n, none⟩
/-- Calls one after the other. -/
def logL (cap p n : Nat) : List (WildCall T) → Log T
  | [] => ⟨[], p, n, none⟩
  | c :: cs =>
    let r := log cap p n c
    if r.panic.isNone then
      let r' := logL cap r.pen r.next cs
      { r' with made := r.made ++ r'.made }
    else r
end

/-- The calls `forest.create_insert(d, InsertAs::LastChildOf(p))` for the pairs of the list, in this order. -/
def plant (cap : Nat) : List (Nat × T) → M (Forest T) Unit
  | [] => pure ()
  | (p, d) :: l => do
    let _ ← Forest.createInsert cap d (.lastChildOf p)
    plant cap l

end WildCall
end Treena
