import Verif.Proof.CreateInsert
import Verif.Proof.Walk
/-!
# What `Shape.move` does, in terms of the parent function, child lists and the place
-/
namespace Treena
open Shape
variable {s : Shape}

/-- Child lists with `x` taken out are untouched by moving `x`. -/
theorem Shape.Valid.move_facts (hv : s.Valid) {x P : Nat} {pl : Place}
    (hpp : s.placeParent pl = some P)
    (hne : ∀ a, pl = .before a ∨ pl = .after a → x ≠ a) (hat : ¬ s.At x pl)
    (hv' : (s.move x pl).Valid) :
    (∀ y, (s.move x pl).parent y = if y = x then some P else s.parent y) ∧
    (∀ q, ((s.move x pl).kids q).erase x = (s.kids q).erase x) ∧
    (s.move x pl).At x pl := by
  obtain ⟨A, B, h1, h2, _⟩ := place_split hv hpp hne hat
  have hm : s.move x pl = (s.detach x).attach x P (A ++ x :: B) := by
    unfold Shape.move; rw [hpp]; simp only; rw [h2]
  have hpar : ∀ y, (s.move x pl).parent y = if y = x then some P else s.parent y := by
    intro y; rw [hm]; simp only [Shape.attach, Shape.detach, upd]; split <;> rfl
  have hkP : (s.move x pl).kids P = pl.put x ((s.detach x).kids P) := by
    rw [hm, h2]; simp [Shape.attach, upd]
  have hxl : x ∉ (s.kids P).erase x := by
    have := hv.kids_nodup P
    rw [List.Nodup.mem_erase_iff this]; simp
  refine ⟨hpar, ?_, ?_⟩
  · intro q
    rw [hm]
    simp only [Shape.attach, upd]
    by_cases hq : q = P
    · subst hq
      simp only [if_true]
      have h1' : (s.kids q).erase x = A ++ B := h1
      rw [h1'] at hxl ⊢
      simp only [List.mem_append, not_or] at hxl
      rw [List.erase_append_right _ hxl.1]; simp
    · simp only [hq, if_false, Shape.detach]
      have : x ∉ (s.kids q).erase x := by
        rw [List.Nodup.mem_erase_iff (hv.kids_nodup q)]; simp
      rw [List.erase_of_not_mem this]
  · cases pl with
    | firstChildOf a =>
      cases hpp
      simp [Shape.At, Shape.first, hkP, Place.put]
    | lastChildOf a =>
      cases hpp
      simp [Shape.At, Shape.last, hkP, Place.put]
    | before a =>
      simp only [Shape.At]
      exact prev_mid hv' (pre := Treena.before ((s.detach x).kids P) a) hkP
    | after a =>
      simp only [Shape.At]
      exact next_mid hv' (pre := Treena.before ((s.detach x).kids P) a) hkP

/-- The subtree of a moved node is untouched. -/
theorem Shape.Valid.move_subtree (hv : s.Valid) {x P : Nat} {pl : Place}
    (hpp : s.placeParent pl = some P) (hcyc : ¬ AncOrSelf s.parent x P) {t : Tree Nat}
    (ht : Tree.IsTree s.kids t) (hr : t.root = x) : Tree.IsTree (s.move x pl).kids t := by
  refine Tree.isTree_congr t (fun y hy => ?_) ht
  rw [Tree.mem_preorder_iff hv ht, hr] at hy
  unfold Shape.move; rw [hpp]
  simp only [Shape.attach, upd, Shape.detach]
  have hyP : y ≠ P := fun e => hcyc (e ▸ hy)
  rw [if_neg hyP, List.erase_of_not_mem]
  intro hmem
  have hpx := (hv.mem_kids x y).1 hmem
  exact (hv.rooted x).acyclic hpx hy

end Treena
