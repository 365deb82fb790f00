import Verif.Props.Sample
import Verif.Proof.History
import Verif.Spec.Careful
import Verif.Spec.Local
/-!
# The sample forest as the result of a history

Used, like `Sample`, to show that the hypotheses of the theorems can be met.
-/
set_option autoImplicit false

namespace Treena
namespace Sample

/-- The calls that make the sample forest. -/
def ops : List (Op Nat) :=
  [.createRoot 10, .createInsert 11 (.lastChildOf 0), .createInsert 12 (.lastChildOf 0), .createInsert 13 (.lastChildOf 0),
   .createInsert 14 (.lastChildOf 2), .createInsert 15 (.lastChildOf 2), .createRoot 16, .createRoot 17, .remove 7]

theorem run : Op.run 100 Forest.new ops = built := rfl
theorem reachable : Reachable 100 built := ⟨ops, rfl⟩
theorem coherent : Coherent built := reachable.coherent
theorem consistent : Consistent built := ⟨_, models⟩
theorem careful : Careful 100 (Forest.new : Forest Nat) ops := by simp [ops, Careful, Op.Harmful]

/-- A history leading to a destroyed forest: `b` and `c` are the children of `a`, then `insert(b, first child of a)`. -/
def spoilt : List (Op Nat) :=
  [.createRoot 10, .createInsert 11 (.lastChildOf 0), .createInsert 12 (.lastChildOf 0), .insert 1 (.firstChildOf 0)]

theorem reachable_spoilt : Reachable 100 (Op.run 100 Forest.new spoilt) := ⟨spoilt, rfl⟩

/-- The links of the sample forest do not lead from the tree of node 6 to another tree or back. -/
theorem apart {x y : Nat} {nb : Neighbors} (h : built.hier.neighbors x = some nb) (hy : nb.mentions y) : (x = 6 ↔ y = 6) ∧ x < 7 ∧ y < 7 := by
  have key : ∀ x < 8, ∀ nb ∈ built.hier.neighbors x, ∀ o ∈ [nb.parent, nb.prevCyc, nb.next, nb.first], ∀ y ∈ o,
      (x = 6 ↔ y = 6) ∧ x < 7 ∧ y < 7 := by decide
  have hx : x < 8 := by
    by_contra hx
    have : built.hier.neighbors x = none := by
      unfold Hier.neighbors
      rw [List.getElem?_eq_none (by have : built.hier.nbrs.length = 8 := by decide
                                    omega)]
      rfl
    rw [this] at h; cases h
  rcases hy with h1 | h1 | h1 | h1 <;> exact key x hx nb h _ (by simp) y h1

theorem path_six {x y : Nat} (h : LinkPath built x y) : x = 6 ↔ y = 6 := by
  induction h with
  | refl => exact Iff.rfl
  | step _ hn hy ih => exact ih.trans (apart hn hy).1

theorem no_path {x y z : Nat} (hx : LinkPath built x z) (hy : LinkPath built y z) (h6 : x = 6) (hn : y ≠ 6) : False :=
  hn ((path_six hy).2 ((path_six hx).1 h6))

theorem not_connected {x : Nat} (hx : x ≠ 6) : ¬ Connected built x 6 := by
  have key : ∀ y, Connected built x y → y ≠ 6 := by
    have hp : ∀ y p, built.parentId y = .ok (some p) → y ≠ 6 ∧ p ≠ 6 := by
      intro y p h
      obtain ⟨nb, h1, h2⟩ : ∃ nb, built.hier.neighbors y = some nb ∧ nb.parent = some p := by
        cases hn : built.hier.neighbors y with
        | none => simp [Forest.parentId, Forest.nbr, hn] at h
        | some nb =>
          refine ⟨nb, rfl, ?_⟩
          simp only [Forest.parentId, Forest.nbr, hn, expect_some, Neighbors.getParent] at h
          split at h
          · cases h
          · simpa using h
      have hy : y ≠ 6 := fun e => by
        subst e
        have : built.parentId 6 = .ok none := rfl
        rw [this] at h; cases h
      exact ⟨hy, fun e => hy ((apart h1 (.inl h2)).1.2 e)⟩
    intro y h
    induction h with
    | refl => exact hx
    | up _ hq ih => exact (hp _ _ hq).2
    | down _ hq ih => exact (hp _ _ hq).1
  exact fun h => key 6 h rfl

/-- The part of the sample forest that consists of node 6 and of the IDs not yet handed out. -/
def six (x : Nat) : Prop := x = 6 ∨ 8 ≤ x

/-- Detaching node 2 does not touch it. -/
theorem same_six : SameIn 100 six built (Forest.detach 2 built).state := by
  refine ⟨by decide, by decide, fun x hx => ?_, fun x hx => ?_, ⟨fun x hx nb hn y hy => ?_, fun x hx _ => ?_⟩⟩
  · rcases hx with rfl | hx
    · decide
    · unfold Hier.neighbors
      rw [List.getElem?_eq_none (show built.hier.nbrs.length ≤ x from hx), List.getElem?_eq_none (show (Forest.detach 2 built).state.hier.nbrs.length ≤ x from hx)]
  · rcases hx with rfl | hx
    · decide
    · unfold Forest.getData
      rw [List.getElem?_eq_none (show built.data.length ≤ x from hx), List.getElem?_eq_none (show (Forest.detach 2 built).state.data.length ≤ x from hx)]
  · have h := apart hn hy
    rcases hx with rfl | hx
    · exact .inl (h.1.1 rfl)
    · omega
  · rcases hx with hx | hx
    · exact .inr hx
    · exact .inr hx

end Sample
end Treena
