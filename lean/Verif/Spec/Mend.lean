import Verif.Spec.Models
/-!
# Specification: a forest in which everything is as it was
-/
set_option autoImplicit false

namespace Treena
variable {T : Type}

/-- For every ID, `g` gives the same data and the same answers as `f`. -/
structure Restored (f g : Forest T) : Prop where
  alive : ∀ z, g.isAlive z = f.isAlive z
  data : ∀ z, g.getData z = f.getData z
  parent : ∀ z, g.parentId z = f.parentId z
  first : ∀ z, g.firstChildId z = f.firstChildId z
  last : ∀ z, g.lastChildId z = f.lastChildId z
  next : ∀ z, g.nextSiblingId z = f.nextSiblingId z
  prev : ∀ z, g.prevSiblingId z = f.prevSiblingId z

end Treena
