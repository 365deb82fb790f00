import Verif.Spec.Models
/-!
# Specification: a forest with some nodes torn out
-/
set_option autoImplicit false

namespace Treena
variable {T : Type}

/-- `f'` is `g` after the nodes `D` died without being unlinked: the other nodes keep their data and their answers, except that
`last_child_id` panics if the first child is dead, and `prev_sibling_id` if the previous sibling is dead. -/
structure Wreck (g f' : Forest T) (D : List Nat) : Prop where
  dead : ∀ y ∈ D, f'.isAlive y = false ∧ f'.getData y = none
  alive : ∀ y, y ∉ D → f'.isAlive y = g.isAlive y
  data : ∀ y, y ∉ D → f'.getData y = g.getData y
  parent : ∀ y, y ∉ D → f'.parentId y = g.parentId y
  first : ∀ y, y ∉ D → f'.firstChildId y = g.firstChildId y
  next : ∀ y, y ∉ D → f'.nextSiblingId y = g.nextSiblingId y
  last_kept : ∀ y, y ∉ D → (∀ c ∈ D, g.firstChildId y ≠ .ok (some c)) → f'.lastChildId y = g.lastChildId y
  last_lost : ∀ y, y ∉ D → ∀ c ∈ D, g.firstChildId y = .ok (some c) → ∃ msg, f'.lastChildId y = .error (.panic msg)
  prev_kept : ∀ y, y ∉ D → (∀ c ∈ D, g.prevSiblingId y ≠ .ok (some c)) → f'.prevSiblingId y = g.prevSiblingId y
  prev_lost : ∀ y, y ∉ D → ∀ c ∈ D, g.prevSiblingId y = .ok (some c) → ∃ msg, f'.prevSiblingId y = .error (.panic msg)

end Treena
