import Verif.Model.Steps
import Verif.Spec.Tree
/-!
# Vocabulary for step counts -/

set_option autoImplicit false

namespace Treena

/-- A result with a counter beside the state. -/
def Res.withCount {σ α : Type} (r : Res σ α) (n : Nat) : Res (σ × Nat) α :=
  match r with
  | .ok a s => .ok a (s, n)
  | .fail e s => .fail e (s, n)

namespace Steps

/-- From `s` the counted computation does what the plain one does, and adds `k` to the counter: `m` takes `k` steps. -/
def Counts {σ α : Type} (mc : M (σ × Nat) α) (m : M σ α) (s : σ) (k : Nat) : Prop :=
  ∀ n, mc (s, n) = (m s).withCount (n + k)

/-- Forgetting the counter gives the plain computation. -/
def Erases {σ α : Type} (mc : M (σ × Nat) α) (m : M σ α) : Prop := ∀ s, ∃ k, Counts mc m s k

end Steps

namespace Tree
variable {α : Type}

mutual
/-- Sum of the depths of all nodes, the root having depth `q`. -/
def depthSum (q : Nat) : Tree α → Nat
  | .node _ ts => q + depthSumL (q + 1) ts
/-- The same for a list of trees. -/
def depthSumL (q : Nat) : List (Tree α) → Nat
  | [] => 0
  | t :: ts => depthSum q t + depthSumL q ts
end

end Tree
end Treena
