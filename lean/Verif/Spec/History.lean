import Verif.Model.History
/-!
# Specification: what a history of calls may do to IDs and data

None of this assumes that the links are consistent.
-/
set_option autoImplicit false

namespace Treena
variable {T : Type}

/-- Data storage and structure agree on the IDs handed out and on which of them are live. -/
structure Coherent (f : Forest T) : Prop where
  len : f.data.length = f.hier.nbrs.length
  live : ∀ x, f.isAlive x = f.hier.isAlive x

/-- Number of IDs handed out so far. -/
def Forest.issued (f : Forest T) : Nat := f.data.length

/-- `f'` may come after `f`: issued IDs stay issued, dead ones stay dead. -/
structure Later (f f' : Forest T) : Prop where
  issued : f.issued ≤ f'.issued
  dead : ∀ x, x < f.issued → f.isAlive x = false → f'.isAlive x = false

/-- `f'` has the data of `f`, and possibly data of additional nodes. -/
def DataExt (f f' : Forest T) : Prop := ∃ l, f'.data = f.data ++ l

end Treena
