import Verif.Spec.Iter
import Verif.Spec.Tree
import Verif.Model.Cost
/-!
# Specification: counting the steps of an iteration
-/
set_option autoImplicit false

namespace Treena

/-- Items obtained by `n` calls of a counted `next`, and the number of steps of all the calls together. -/
def pullC {ι σ : Type} (next : σ → Counted (Option ι × σ)) : Nat → σ → Counted (List (Option ι))
  | 0, _ => .ok ([], 0)
  | n + 1, st =>
    match next st with
    | .error e => .error e
    | .ok ((o, st'), k) =>
      match pullC next n st' with
      | .error e => .error e
      | .ok (os, k') => .ok (o :: os, k + k')

/-- Forget the count. -/
def Counted.value {α : Type} (r : Counted α) : R α :=
  match r with
  | .error e => .error e
  | .ok (a, _) => .ok a

namespace Tree
variable {α : Type}

mutual
/-- Number of nodes of depth at most `d`. -/
def upTo : Nat → Tree α → Nat
  | 0, .node _ _ => 1
  | d + 1, .node _ ts => upToL d ts + 1
def upToL : Nat → List (Tree α) → Nat
  | _, [] => 0
  | d, t :: ts => upTo d t + upToL d ts
end

/-- Steps of a complete breadth-first iteration without a queue, calls of `next` not counted: for each depth
`d` up to and including the first one without nodes, the nodes of depth at most `d` are opened and closed, and the
end is noticed. -/
def bftSteps (t : Tree α) : Nat :=
  ((List.range (t.height + 1)).map fun d => 2 * t.upTo d + 1).sum + t.height

/-- Steps of a complete breadth-first iteration with a queue: each node is put into the queue (but the first one,
which is there from the start), taken from it and looked up once for its children and (but the first one) once for
its next sibling; the end-of-level mark is taken once per level and put back for each level but the last one. -/
def abftSteps (t : Tree α) : Nat := (t.count - 1) + t.count + t.count + (t.count - 1) + t.height + (t.height - 1)

/-- A tree in which each node but the last one has exactly one child. -/
def line : Nat → Tree Unit
  | 0 => .node () []
  | n + 1 => .node () [line n]

end Tree
end Treena
