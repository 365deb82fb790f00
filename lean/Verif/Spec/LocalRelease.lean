import Verif.Spec.Local
import Verif.Model.Release
/-! The tainted nodes (`Spec/Local.lean`) of a history in a release build. -/
set_option autoImplicit false

namespace Treena
namespace Release
variable {T : Type}

open Classical in
/-- The tainted nodes after a call of a release build, given the tainted nodes before.  Unless the call is given a live
tainted node (other than for copying it) or is harmful, nothing changes; otherwise the trees of the nodes given to the call and the nodes it makes
become tainted. -/
noncomputable def taintStep (cap : Nat) (f : Forest T) (B : Nat → Prop) (op : Op T) : Nat → Prop :=
  if (∃ x ∈ op.targets, B x ∧ f.isAlive x = true) ∨ op.Harmful f then fun y =>
    B y ∨ (f.isAlive y = true ∧ ∃ x ∈ op.targets, Connected f x y) ∨ (f.issued ≤ y ∧ y < (step cap f op).issued)
  else B

/-- The tainted nodes after a history. -/
noncomputable def taint (cap : Nat) : Forest T → (Nat → Prop) → List (Op T) → Nat → Prop
  | _, B, [] => B
  | f, B, op :: ops => taint cap (step cap f op) (taintStep cap f B op) ops

end Release
end Treena
