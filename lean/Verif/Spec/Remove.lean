import Verif.Spec.Models
import Verif.Spec.Tree
import Verif.Spec.Hook
/-!
# Specification: removing a subtree
-/
set_option autoImplicit false

namespace Treena
variable {T S : Type}

/-- The forest `f'` of shape `s'` is the forest `f` of shape `s` without `x` and its descendants: those are
dead, and every other node keeps its liveness, parent, datum and its child list (except that `x` is gone). -/
structure Removed (f : Forest T) (s : Shape) (x : Nat) (f' : Forest T) (s' : Shape) : Prop where
  models : Models f' s'
  describes : Describes f' s'
  size : s'.size = s.size
  alive : ∀ y, s'.alive y = true ↔ s.alive y = true ∧ ¬ AncOrSelf s.parent x y
  parent : ∀ y, ¬ AncOrSelf s.parent x y → s'.parent y = s.parent y
  kids : ∀ y, ¬ AncOrSelf s.parent x y → s'.kids y = (s.kids y).filter (· ≠ x)
  data : ∀ y, ¬ AncOrSelf s.parent x y → f'.getData y = f.getData y

/-- The forest `f'` of shape `s'` is the forest `f` of shape `s` with `x` cut off from its parent and the
nodes in `D` dead: all other nodes keep liveness, data, parents (`x` has none) and the order of their
surviving children. -/
structure PartlyRemoved (f : Forest T) (s : Shape) (x : Nat) (D : List Nat) (f' : Forest T) (s' : Shape) :
    Prop where
  models : Models f' s'
  describes : Describes f' s'
  size : s'.size = s.size
  alive : ∀ y, s'.alive y = true ↔ s.alive y = true ∧ y ∉ D
  parent : ∀ y, y ∉ D → s'.parent y = if y = x then none else s.parent y
  kids : ∀ y, y ∉ D → s'.kids y = (s.kids y).filter fun c => decide (c ≠ x ∧ c ∉ D)
  data : ∀ y, y ∉ D → f'.getData y = f.getData y

/-- A callback that never panics. -/
def NeverPanics {ι : Type} (hook : S → ι → Except S S) : Prop := ∀ σ i, ∃ σ', hook σ i = .ok σ'

end Treena
