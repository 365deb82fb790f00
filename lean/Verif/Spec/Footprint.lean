import Verif.Spec.Tree
import Verif.Model.Forest
/-!
# Specification: forests that are the same at some nodes
-/
set_option autoImplicit false

namespace Treena
variable {T U : Type}

/-- At the nodes of `A`, `g` has the same links as `f`, and data exactly where `f` has.  Nothing is said about the
other nodes of the two forests: they may be missing, removed, or linked in any way, consistent or not. -/
structure SameAt (A : Nat → Prop) (f : Forest T) (g : Forest U) : Prop where
  links : ∀ y, A y → g.hier.neighbors y = f.hier.neighbors y
  data : ∀ y, A y → (g.getData y).isSome = (f.getData y).isSome

/-- `y` is a node of `t` at depth at most `m`. -/
def Tree.Within (t : Tree Nat) (m y : Nat) : Prop := ∃ d, d ≤ m ∧ y ∈ t.level d

/-- `f` with the records of the nodes outside `keep` overwritten by arbitrary ones, and their data dropped. -/
def Forest.scramble (f : Forest T) (keep : Nat → Bool) (junk : Nat → Neighbors) : Forest T :=
  ⟨⟨f.hier.nbrs.mapIdx fun i nb => if keep i then nb else junk i⟩, f.data.mapIdx fun i d => if keep i then d else none⟩

end Treena
