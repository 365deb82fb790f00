import Verif.Spec.Pool
/-!
# Specification: calls that end in every forest

`Ans.hung` and `PoolAns.hung` say that a call never returns (the fuel lemmas of `Proof/Fuel*.lean` show that the
model's fuel is exhausted only if the loop of the code goes on for ever).
-/
set_option autoImplicit false

namespace Treena
variable {T : Type}

/-- The calls without a loop over links: the look-ups, the accessors of `Node`, making an iterator and calling `next` and
`next_back` of a `DepthFirstTraverse`, `ShallowDepthFirstTraverse`, `Ancestors` or `Siblings` any number of times,
`create_root`, `data_mut` and `detach`. -/
def Req.Brief : Req T → Prop
  | .alive _ | .data _ | .link _ _ | .ends _ | .near _ _ | .nearEnds _ | .dft _ _ | .shallow _ _ _ | .ancestors _ _ _ | .row _ _ _
  | .createRoot _ | .setData _ _ | .detach _ => True
  | _ => False

/-- Building a new tree. -/
def Req.Builds : Req T → Prop
  | .nest _ _ | .chain _ _ => True
  | _ => False

/-- The iterators whose `next` has no loop. -/
def Iter.Brief : Iter → Prop
  | .bft _ | .abft _ => False
  | _ => True

/-- The ancestors of `p` and `p` itself go on for ever; `x` is not among them. -/
def EndlessUp (f : Forest T) (x p : Nat) : Prop :=
  ∃ st, f.ancestorsOrSelf p = .ok st ∧
    ∀ n, ∃ items, pull f.ancestorsNext n st = .ok items ∧ items.length = n ∧ ∀ i ∈ items, ∃ a, i = some a ∧ a ≠ x

/-- The node under which `dest` is, by the accessors. -/
def Under (f : Forest T) (p : Nat) : InsertAs → Prop
  | .firstChildOf a | .lastChildOf a => p = a
  | .previousSiblingOf a | .nextSiblingOf a => f.parentId a = .ok (some p)

/-- Starting with `c`, `step` leads from node to node and never ends. -/
def Endless (step : Nat → R (Option Nat)) (c : Nat) : Prop :=
  ∃ s : Nat → Nat, s 0 = c ∧ ∀ n, step (s n) = .ok (some (s (n + 1)))

/-- The depth-first traversal of the tree at `x` never ends. -/
def EndlessWalk (f : Forest T) (x : Nat) : Prop :=
  ∃ st, f.depthFirstTraverse x = .ok st ∧
    ∀ n, ∃ items, pull f.dftNext n st = .ok items ∧ items.length = n ∧ ∀ i ∈ items, ∃ e, i = some e

/-- The shallow traversal of the tree at `x` with the depth limit `m` never ends. -/
def EndlessShallow (um : Nat) (f : Forest T) (x m : Nat) : Prop :=
  ∃ st, f.shallowDepthFirstTraverse um x (some m) = .ok st ∧
    ∀ n, ∃ items, pull f.shallowNext n st = .ok items ∧ items.length = n ∧ ∀ i ∈ items, ∃ e, i = some e

end Treena
