import Verif.Proof.Remove
import Verif.Proof.InPlace
import Verif.Proof.Footprint
import Verif.Proof.Laws
import Verif.Spec.Wreck
/-! What `remove_hooked` leaves behind when its hook panics. -/
set_option autoImplicit false

namespace Treena
open Hier
variable {T : Type}

/-- `a` comes before some occurrence of `b`. -/
def Prec {α : Type} (l : List α) (a b : α) : Prop := ∃ p q, l = p ++ b :: q ∧ a ∈ p

theorem Prec.left {α : Type} {l : List α} {a b : α} (m : List α) (h : Prec l a b) : Prec (l ++ m) a b := by
  obtain ⟨p, q, rfl, ha⟩ := h
  exact ⟨p, q ++ m, by simp, ha⟩
theorem Prec.right {α : Type} {l : List α} {a b : α} (m : List α) (h : Prec l a b) : Prec (m ++ l) a b := by
  obtain ⟨p, q, rfl, ha⟩ := h
  exact ⟨m ++ p, q, by simp, by simp [ha]⟩

theorem Prec.take {α : Type} {l : List α} {a b : α} (h : Prec l a b) (hn : l.Nodup) {k : Nat} (hb : b ∈ l.take k) : a ∈ l.take k := by
  obtain ⟨p, q, rfl, ha⟩ := h
  by_cases hk : k ≤ p.length
  · rw [List.take_append_of_le_length hk] at hb
    have := (List.nodup_append.1 hn).2.2 b (List.mem_of_mem_take hb) b (by simp)
    exact absurd rfl this
  · rw [List.take_append, List.take_of_length_le (by omega)]
    exact List.mem_append_left _ ha

namespace Tree

theorem root_mem_postorder (t : Tree Nat) : t.root ∈ t.postorder := mem_postorder.2 (root_mem_preorder t)

theorem roots_prec : ∀ (ts : List (Tree Nat)) (A : List Nat) {y : Nat} {B : List Nat} {v : Nat} {C : List Nat},
    ts.map root = A ++ y :: B ++ v :: C → Prec (postorderL ts) y v
  | [], A, y, B, v, C, h => by simp at h
  | t :: ts, [], y, B, v, C, h => by
    simp only [List.map_cons, List.nil_append, List.cons_append, List.cons.injEq] at h
    obtain ⟨rfl, h2⟩ := h
    have hv : v ∈ ts.map root := by rw [h2]; simp
    obtain ⟨u, hu, rfl⟩ := List.mem_map.1 hv
    have hm : ∀ (us : List (Tree Nat)), u ∈ us → u.root ∈ postorderL us := by
      intro us hu
      induction us with
      | nil => cases hu
      | cons a us ih =>
        simp only [postorderL, List.mem_append]
        rcases List.mem_cons.1 hu with rfl | hu
        · exact .inl (root_mem_postorder _)
        · exact .inr (ih hu)
    obtain ⟨p, q, e⟩ := List.append_of_mem (hm ts hu)
    exact ⟨t.postorder ++ p, q, by simp [postorderL, e], List.mem_append_left _ (root_mem_postorder t)⟩
  | t :: ts, a :: A, y, B, v, C, h => by
    simp only [List.map_cons, List.cons_append, List.cons.injEq] at h
    have := roots_prec ts A (y := y) (B := B) (v := v) (C := C) (by rw [h.2])
    exact this.right _

mutual
theorem sib_prec {kids : Nat → List Nat} : ∀ (t : Tree Nat), IsTree kids t → ∀ P ∈ t.preorder, ∀ {A : List Nat} {y : Nat} {B : List Nat} {v : Nat}
    {C : List Nat}, kids P = A ++ y :: B ++ v :: C → Prec t.postorder y v
  | .node x ts, ⟨h1, h2⟩, P, hP, A, y, B, v, C, hk => by
    simp only [preorder, List.mem_cons] at hP
    simp only [postorder]
    rcases hP with rfl | hP
    · exact (roots_prec ts A (h1 ▸ hk)).left _
    · exact (sib_precL ts h2 P hP hk).left _
theorem sib_precL {kids : Nat → List Nat} : ∀ (ts : List (Tree Nat)), IsForest kids ts → ∀ P ∈ preorderL ts, ∀ {A : List Nat} {y : Nat} {B : List Nat}
    {v : Nat} {C : List Nat}, kids P = A ++ y :: B ++ v :: C → Prec (postorderL ts) y v
  | [], _, P, hP, _, _, _, _, _, _ => by simp [preorderL] at hP
  | t :: ts, ⟨h1, h2⟩, P, hP, A, y, B, v, C, hk => by
    simp only [preorderL, List.mem_append] at hP
    simp only [postorderL]
    rcases hP with hP | hP
    · exact (sib_prec t h1 P hP hk).left _
    · exact (sib_precL ts h2 P hP hk).right _
end

theorem postorder_nodup {s : Shape} (hv : s.Valid) {t : Tree Nat} (ht : IsTree s.kids t) : t.postorder.Nodup :=
  (postorder_perm t).nodup_iff.2 (preorder_nodup hv t ht)

end Tree

variable {g f' : Forest T} {s : Shape} {t : Tree Nat} {n : Nat}

theorem RawKilled.wreck (hm : Models g s) (ht : Tree.IsTree s.kids t) (hr : s.parent t.root = none) (hx : s.alive t.root = true)
    (hk : RawKilled g (t.postorder.take n) f') (hd : ∀ y, f'.getData y = if y ∈ t.postorder.take n then none else g.getData y) :
    Wreck g f' (t.postorder.take n) := by
  have hv := hm.valid
  generalize hD : t.postorder.take n = D at hk hd
  have hget : ∀ y, y ∉ D → f'.hier.get y = g.hier.get y := fun y hy => by rw [hk.get, if_neg hy]
  have hdead : ∀ y, y ∈ D → f'.hier.neighbors y = none := fun y hy => by
    rw [neighbors_eq, hk.get, if_pos hy]; rfl
  have hnb : ∀ y, y ∉ D → f'.hier.neighbors y = g.hier.neighbors y := fun y hy => by rw [neighbors_eq, neighbors_eq, hget y hy]
  have hnbr : ∀ y, y ∉ D → f'.nbr y = g.nbr y := fun y hy => by unfold Forest.nbr; rw [hnb y hy]
  have hagr := hm.agrees.2
  have hal : ∀ y, f'.isAlive y = (f'.getData y).isSome := fun y => (getData_isSome_isAlive f' y).symm
  have hal' : ∀ y, g.isAlive y = (g.getData y).isSome := fun y => (getData_isSome_isAlive g y).symm
  -- the reads behind `last_child_id` and `prev_sibling_id`
  have hlive : ∀ y, s.alive y = true → g.hier.live y := fun y hy => by
    have := hm.hierAlive y
    rw [hy, isAlive_iff] at this
    exact this
  have hlastE : ∀ y, y ∉ D → ∀ c, (g.hier.get y).first = some c → c ∈ D → g.hier.live y → ∃ msg, f'.lastChildId y = .error (.panic msg) := by
    intro y hy c hc hcD hl
    have hl' : f'.hier.live y := by unfold live; rw [hget y hy]; exact hl
    have ha' : (f'.hier.get y).isAlive = true := hl'
    refine ⟨"[consistency] children of a live node must also be alive", ?_⟩
    rw [hget y hy] at ha'
    simp [Forest.lastChildId, Forest.nbr, neighbors_live hl', hget y hy, Neighbors.lastChild, Neighbors.firstLastChild, Neighbors.firstChild, ha',
      hc, hdead c hcD]
  have hprevE : ∀ y, y ∉ D → ∀ c, (g.hier.get y).prevCyc = some c → c ∈ D → ∃ msg, f'.prevSiblingId y = .error (.panic msg) := by
    intro y hy c hc hcD
    have hl' : f'.hier.live y := live_iff_prevCyc.2 ⟨c, by rw [hget y hy, hc]⟩
    refine ⟨"[consistency] the `prev_sibling_cyclic` node must be alive", ?_⟩
    simp [Forest.prevSiblingId, Forest.nbr, neighbors_live hl', Neighbors.prevSibling, hget y hy, hc, hdead c hcD]
  refine ⟨fun y hy => ?_, fun y hy => ?_, fun y hy => ?_, fun y hy => ?_, fun y hy => ?_, fun y hy => ?_, fun y hy hc => ?_,
    fun y hy c hcD hc => ?_, fun y hy hc => ?_, fun y hy c hcD hc => ?_⟩
  · have := hd y
    rw [if_pos hy] at this
    exact ⟨by rw [hal, this]; rfl, this⟩
  · rw [hal, hal', hd, if_neg hy]
  · rw [hd, if_neg hy]
  · unfold Forest.parentId; rw [hnbr y hy]
  · unfold Forest.firstChildId; rw [hnbr y hy]
  · unfold Forest.nextSiblingId; rw [hnbr y hy]
  · by_cases hl : g.hier.live y
    · have h1 := acc_first (f := g) hl
      unfold Forest.lastChildId
      rw [hnbr y hy]
      simp only [Forest.nbr, neighbors_live hl, expect, Neighbors.lastChild, Neighbors.firstLastChild]
      have ha : (g.hier.get y).isAlive = true := hl
      simp only [Neighbors.firstChild, ha, Bool.not_true, if_neg Bool.false_ne_true]
      cases e : (g.hier.get y).first with
      | none => rfl
      | some c =>
        have : c ∉ D := fun h => hc c h (by rw [h1, e])
        simp only [hnb c this]
    · unfold Forest.lastChildId
      rw [hnbr y hy]
      simp [Forest.nbr, neighbors_dead hl]
  · by_cases hl : g.hier.live y
    · rw [acc_first hl] at hc
      exact hlastE y hy c (Except.ok.inj hc) hcD hl
    · simp [Forest.firstChildId, Forest.nbr, neighbors_dead hl, expect] at hc
  · by_cases hl : g.hier.live y
    · obtain ⟨v, hv'⟩ := live_iff_prevCyc.1 hl
      by_cases hvD : v ∈ D
      · exfalso
        have hya : s.alive y = true := by rw [← hm.hierAlive]; exact (isAlive_iff _ _).2 hl
        have hpc : (s.prev y).or (s.sibs y).getLast? = some v := by
          have := hagr y
          rw [Shape.entry, if_pos hya] at this
          rw [this] at hv'
          exact hv'
        have hpy := hm.describes.prev y hya
        cases e : s.prev y with
        | some p =>
          rw [e] at hpc hpy
          cases hpc
          exact hc v hvD hpy
        | none =>
          rw [e] at hpc
          have hpc : (s.sibs y).getLast? = some v := hpc
          unfold Shape.sibs at hpc
          cases ep : s.parent y with
          | none =>
            rw [ep] at hpc
            cases hpc
            exact hy hvD
          | some P =>
            rw [ep] at hpc
            have hpc : (s.kids P).getLast? = some v := hpc
            have hvk : v ∈ s.kids P := List.mem_of_getLast? hpc
            have hyk : y ∈ s.kids P := (hv.mem_kids y P).2 ep
            have hvt : v ∈ t.preorder := Tree.mem_postorder.1 (List.mem_of_mem_take (hD ▸ hvD))
            have hPt : P ∈ t.preorder := by
              have hvp := hv.kid_parent hvk
              obtain ⟨p, h1, h2⟩ := preorder_parent hv ht hvt (fun h => by rw [h, hr] at hvp; cases hvp)
              rw [hvp] at h1; cases h1; exact h2
            have hne : y ≠ v := fun h => hy (h ▸ hvD)
            have hhead : before (s.kids P) y = [] := by
              have : s.prev y = (before (s.sibs y) y).getLast? := rfl
              rw [e, Shape.sibs, ep] at this
              exact List.getLast?_eq_none_iff.1 this.symm
            obtain ⟨A, B, hAB⟩ := List.append_of_mem hyk
            have hnd := hv.kids_nodup P
            have hA : A = [] := by
              rw [hAB] at hhead hnd
              rw [before_mid (by simp [List.nodup_append] at hnd; exact fun h => (hnd.2.2 y h).1 rfl)] at hhead
              exact hhead
            subst hA
            rw [hAB] at hvk
            have hvB : v ∈ B := by
              rcases List.mem_cons.1 hvk with h | h
              · exact absurd h.symm hne
              · exact h
            obtain ⟨B1, B2, rfl⟩ := List.append_of_mem hvB
            have hp := Tree.sib_prec t ht P hPt (A := []) (y := y) (B := B1) (v := v) (C := B2) (by rw [hAB]; simp)
            subst hD
            exact hy (hp.take (Tree.postorder_nodup hv ht) hvD)
      · unfold Forest.prevSiblingId
        rw [hnbr y hy]
        simp only [Forest.nbr, neighbors_live hl, expect, Neighbors.prevSibling, hv', hnb v hvD]
    · unfold Forest.prevSiblingId
      rw [hnbr y hy]
      simp [Forest.nbr, neighbors_dead hl]
  · by_cases hl : g.hier.live y
    · obtain ⟨v, hv'⟩ := live_iff_prevCyc.1 hl
      refine hprevE y hy v hv' ?_
      have hc' := hc
      simp only [Forest.prevSiblingId, Forest.nbr, neighbors_live hl, expect, Neighbors.prevSibling, hv'] at hc'
      cases e : g.hier.neighbors v with
      | none => rw [e] at hc'; cases hc'
      | some nb =>
        rw [e] at hc'
        have hc' := Except.ok.inj hc'
        cases e2 : nb.next with
        | none => rw [e2] at hc'; cases hc'
        | some w => rw [e2] at hc'; cases hc'; exact hcD
    · simp [Forest.prevSiblingId, Forest.nbr, neighbors_dead hl, expect] at hc

end Treena
