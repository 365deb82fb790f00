import Verif.Proof.Shape
/-! `connect_triangle` closes the gap left by a node; `detach`. -/
namespace Treena

theorem snoc_cases (l : List Nat) : l = [] ∨ ∃ l' a, l = l' ++ [a] := by
  rcases List.eq_nil_or_concat l with h | ⟨l', a, h⟩
  · exact .inl h
  · exact .inr ⟨l', a, by simpa using h⟩

namespace Shape
variable {s : Shape}

/-- Position of a child in its parent's list. -/
theorem Valid.split (hv : s.Valid) {x p : Nat} (hp : s.parent x = some p) :
    ∃ A B, s.kids p = A ++ x :: B ∧ s.prev x = A.getLast? ∧ s.next x = B.head? ∧
      before (s.kids p) x = A ∧ after (s.kids p) x = B ∧ (s.kids p).erase x = A ++ B := by
  have hm := (hv.mem_kids x p).2 hp
  refine ⟨before (s.kids p) x, after (s.kids p) x, (before_after hm).symm, ?_, ?_, rfl, rfl,
    erase_eq_before_after hm⟩
  · unfold prev; rw [sibs_child hp]
  · unfold next; rw [sibs_child hp]

theorem Valid.detach_kids_ne (hv : s.Valid) {x p q : Nat} (hp : s.parent x = some p) (hq : q ≠ p) :
    (s.detach x).kids q = s.kids q := by
  show (s.kids q).erase x = _
  apply List.erase_of_not_mem
  intro h
  have := hv.kid_parent h
  rw [hp] at this
  exact hq (Option.some.inj this).symm

theorem detach_parent (s : Shape) {x y : Nat} (h : y ≠ x) : (s.detach x).parent y = s.parent y := by
  simp [detach, upd, h]

theorem detach_parent_self (s : Shape) {x : Nat} : (s.detach x).parent x = none := by
  simp [detach, upd]

/-- Links of nodes that are neither the old parent nor old siblings do not change. -/
theorem Valid.detach_link_other (hv : s.Valid) {x p y : Nat} (hp : s.parent x = some p)
    (hyx : y ≠ x) (hyp : y ≠ p) (hy : s.parent y ≠ some p) : (s.detach x).link y = s.link y := by
  rw [link_eq, link_eq]
  have h1 := s.detach_parent hyx
  have h2 : (s.detach x).sibs y = s.sibs y := by
    unfold sibs; rw [h1]
    cases e : s.parent y with
    | none => rfl
    | some q => exact hv.detach_kids_ne hp (fun e' => hy (by rw [e, e']))
  have h3 : (s.detach x).first y = s.first y := by
    unfold first; rw [hv.detach_kids_ne hp hyp]
  rw [h1, h2, h3]

theorem Valid.detach_link_parent (hv : s.Valid) {x p : Nat} (hp : s.parent x = some p) :
    (s.detach x).link p = { s.link p with first := ((s.kids p).erase x).head? } := by
  have hpx := hv.parent_ne hp
  rw [link_eq, link_eq]
  have h1 := s.detach_parent hpx
  have h2 : (s.detach x).sibs p = s.sibs p := by
    unfold sibs; rw [h1]
    cases e : s.parent p with
    | none => rfl
    | some q =>
      exact hv.detach_kids_ne hp (hv.parent_ne e)
  rw [h1, h2]; rfl

theorem Valid.detach_link_sib (hv : s.Valid) {x p y : Nat} (hp : s.parent x = some p)
    (hyx : y ≠ x) (hy : s.parent y = some p) :
    (s.detach x).link y = Neighbors.mk (some p) (pc ((s.kids p).erase x) y) (nx ((s.kids p).erase x) y) (s.kids y).head? := by
  rw [link_child (s := s.detach x) (p := p) (by rw [s.detach_parent hyx, hy])]
  rw [hv.detach_kids_ne hp (hv.parent_ne hy).symm]; rfl

end Shape

open Hier Shape

theorem disconnect {h : Hier} {s : Shape} (ha : Agrees h s) (hv : s.Valid) {x p : Nat}
    (hp : s.parent x = some p) :
    ∃ h1, connectTriangle (some p) (s.prev x) (s.next x) h = .ok () h1 ∧
      h1.nbrs.length = s.size ∧ h1.get x = s.link x ∧
      ∀ y, y ≠ x → h1.get y = (s.detach x).entry y := by
  obtain ⟨A, B, hL, hprev, hnext, _, _, her⟩ := hv.split hp
  have hpx := hv.parent_ne hp
  have hnd := hv.kids_nodup p
  rw [hL] at hnd
  have hA : A.Nodup := (List.nodup_append.1 hnd).1
  have hB : B.Nodup := (List.nodup_cons.1 (List.nodup_append.1 hnd).2.1).2
  have hxA : x ∉ A := fun hm => (List.nodup_append.1 hnd).2.2 x hm x (by simp) rfl
  have hxB : x ∉ B := (List.nodup_cons.1 (List.nodup_append.1 hnd).2.1).1
  have hAB : ∀ y ∈ A, y ∉ B := fun y h1 h2 =>
    (List.nodup_append.1 hnd).2.2 y h1 y (by simp [h2]) rfl
  have hpa : s.alive p = true := (hv.parent_alive x p hp).2
  have hpl := (ha.live_iff hv p).2 hpa
  have hsibA : ∀ y, y ∈ A → s.parent y = some p := fun y hy => hv.kid_parent (by rw [hL]; simp [hy])
  have hsibB : ∀ y, y ∈ B → s.parent y = some p := fun y hy => hv.kid_parent (by rw [hL]; simp [hy])
  have hal : ∀ y, s.parent y = some p → s.alive y = true := fun y hy => (hv.parent_alive y p hy).1
  have hlive : ∀ y, s.parent y = some p → h.live y := fun y hy => (ha.live_iff hv y).2 (hal y hy)
  -- the record of every node other than `x`, by cases
  have key : ∀ (h1 : Hier), h1.nbrs.length = h.nbrs.length → h1.get x = h.get x →
      (h1.get p = { h.get p with first := (A ++ B).head? }) →
      (∀ y, y ∈ A → h1.get y = { h.get y with prevCyc := pc (A ++ B) y, next := nx (A ++ B) y }) →
      (∀ y, y ∈ B → h1.get y = { h.get y with prevCyc := pc (A ++ B) y, next := nx (A ++ B) y }) →
      (∀ y, y ≠ p → y ∉ A → y ∉ B → h1.get y = h.get y) →
      h1.nbrs.length = s.size ∧ h1.get x = s.link x ∧
      ∀ y, y ≠ x → h1.get y = (s.detach x).entry y := by
    intro h1 hlen hx1 hp1 hA1 hB1 ho1
    refine ⟨by rw [hlen, ha.1], by rw [hx1, ha.get_alive (hv.parent_alive x p hp).1], ?_⟩
    intro y hyx
    by_cases hy : s.alive y = true
    · have hd : (s.detach x).alive y = true := hy
      rw [entry_alive hd]
      by_cases hyp : y = p
      · subst hyp
        rw [hp1, hv.detach_link_parent hp, her, ha.get_alive hy]
      · by_cases hys : s.parent y = some p
        · rw [hv.detach_link_sib hp hyx hys, her]
          have hmem : y ∈ A ∨ y ∈ B := by
            have := (hv.mem_kids y p).2 hys
            rw [hL] at this; simp [hyx] at this; exact this
          have hg : h.get y = s.link y := ha.get_alive hy
          rcases hmem with hm | hm
          · rw [hA1 y hm, hg, link_child hys]
          · rw [hB1 y hm, hg, link_child hys]
        · rw [hv.detach_link_other hp hyx hyp hys]
          rw [ho1 y hyp (fun hm => hys (hsibA y hm)) (fun hm => hys (hsibB y hm)), ha.get_alive hy]
    · have hy' : s.alive y = false := by simpa using hy
      have hd : (s.detach x).alive y = false := hy'
      rw [entry_dead hd]
      have h1 : y ≠ p := fun e => hy (e ▸ hpa)
      rw [ho1 y h1 (fun hm => hy (hal y (hsibA y hm))) (fun hm => hy (hal y (hsibB y hm))), ha.2 y,
        entry_dead hy']
  have hgA : ∀ y, y ∈ A → h.get y = Neighbors.mk (some p) (pc (A ++ x :: B) y) (nx (A ++ x :: B) y) (s.kids y).head? := fun y hy => by
    rw [ha.get_alive (hal y (hsibA y hy)), link_child (hsibA y hy), hL]
  have hgB : ∀ y, y ∈ B → h.get y = Neighbors.mk (some p) (pc (A ++ x :: B) y) (nx (A ++ x :: B) y) (s.kids y).head? := fun y hy => by
    rw [ha.get_alive (hal y (hsibB y hy)), link_child (hsibB y hy), hL]
  have hgp : (h.get p).first = (A ++ x :: B).head? := by
    rw [ha.get_alive hpa]; show (s.kids p).head? = _; rw [hL]
  have hpA : p ∉ A := fun hm => hv.self_not_kid (x := p) (by rw [hL]; simp [hm])
  have hpB : p ∉ B := fun hm => hv.self_not_kid (x := p) (by rw [hL]; simp [hm])
  rw [hprev, hnext]
  rcases snoc_cases A with hA0 | ⟨A', a, hA0⟩
  · -- no previous sibling
    subst hA0
    cases B with
    | nil =>
      simp only [List.getLast?_nil, List.head?_nil]
      rw [connect_p hpl]
      refine ⟨_, rfl, key _ (by simp) ?_ ?_ (by simp) (by simp) ?_⟩
      · rw [get_put (live_lt hpl), if_neg hpx.symm]
      · rw [get_put (live_lt hpl), if_pos rfl]; rfl
      · intro y hyp _ _; rw [get_put (live_lt hpl), if_neg hyp]
    | cons b B' =>
      simp only [List.getLast?_nil, List.head?_cons]
      have hbl := hlive b (hsibB b (by simp))
      have hpb : p ≠ b := fun e => hpB (by simp [e])
      have hxb : x ≠ b := fun e => hxB (by simp [e])
      rw [connect_pb hpb hpl hbl (ha.lastChild hv hpa)]
      have hlt : p < (h.put b { h.get b with parent := some p, prevCyc := some ((s.kids p).getLast?.getD b) }).nbrs.length := by
        simpa using live_lt hpl
      refine ⟨_, rfl, key _ (by simp) ?_ ?_ (by simp) ?_ ?_⟩
      · rw [get_put hlt, if_neg hpx.symm, get_put (live_lt hbl), if_neg hxb]
      · rw [get_put hlt, if_pos rfl]; rfl
      · intro y hy
        have hyp : y ≠ p := fun e => hpB (e ▸ hy)
        rw [get_put hlt, if_neg hyp, get_put (live_lt hbl)]
        have hyx : y ≠ x := fun e => hxB (e ▸ hy)
        have e2 : nx ([] ++ x :: b :: B') y = nx ([] ++ b :: B') y := by
          have := nx_right (A := [x]) (b :: B') (y := y) (by simpa using hyx)
          simpa using this
        have e1 : pc ([] ++ x :: b :: B') y = if (b :: B').head? = some y then
            [x].getLast?.or (b :: B').getLast? else pv (b :: B') y := by
          have := pc_right (A := [x]) (b :: B') (y := y) (by simpa using hyx) hy
          simpa using this
        have e3 : pc ([] ++ b :: B') y = (if (b :: B').head? = some y then (b :: B').getLast? else pv (b :: B') y) := pc_self hy
        split
        · rename_i hyb; subst hyb
          rw [hgB y (by simp), e2, e3]
          have : (s.kids p).getLast? = (y :: B').getLast? := by
            rw [hL]; simp
          rw [this]
          obtain ⟨z, hz, _⟩ := getLast?_of_mem hy
          simp [hz]
        · rename_i hyb
          rw [hgB y hy, e1, e2, e3]
          have : ¬ ((b :: B').head? = some y) := by simp; exact fun e => hyb e.symm
          rw [if_neg this, if_neg this]
      · intro y hyp _ hyB
        rw [get_put hlt, if_neg hyp, get_put (live_lt hbl), if_neg (fun e => hyB (by simp [e]))]
  · have haA : a ∈ A := by simp [hA0]
    have hal' := hlive a (hsibA a haA)
    have hpa' : p ≠ a := fun e => hpA (e ▸ haA)
    have hxa : x ≠ a := fun e => hxA (e ▸ haA)
    have hAlast : A.getLast? = some a := by rw [hA0]; simp
    cases B with
    | nil =>
      simp only [List.head?_nil]
      rw [hAlast]
      obtain ⟨c, hc⟩ : ∃ c, A.head? = some c := by
        cases A with
        | nil => simp at haA
        | cons c l => exact ⟨c, rfl⟩
      have hcA : c ∈ A := List.mem_of_mem_head? hc
      have hcl := hlive c (hsibA c hcA)
      have hfc : (h.get p).first = some c := by
        rw [hgp]; cases A with
        | nil => simp at haA
        | cons c' l => simpa using hc
      rw [connect_pa hpa' hal' hpl hcl hfc]
      have hlt : c < (h.put a { h.get a with parent := some p, next := none }).nbrs.length := by
        simpa using live_lt hcl
      have hpc : p ≠ c := fun e => hpA (e ▸ hcA)
      have hxc : x ≠ c := fun e => hxA (e ▸ hcA)
      have hh : (A ++ []).head? = (A ++ [x]).head? := by
        cases A with
        | nil => simp at haA
        | cons c' l => rfl
      refine ⟨_, rfl, key _ (by simp) ?_ ?_ ?_ (by simp) ?_⟩
      · rw [get_put hlt, if_neg hxc, get_put (live_lt hal'), if_neg hxa]
      · rw [get_put hlt, if_neg hpc, get_put (live_lt hal'), if_neg hpa', hh, ← hgp]
      · intro y hy
        have e1 : pc (A ++ [x]) y = _ := pc_left [x] hy
        have e2 : pc (A ++ []) y = _ := pc_left [] hy
        have e3 : nx (A ++ [x]) y = _ := nx_left [x] hA hy
        have e4 : nx (A ++ []) y = _ := nx_left [] hA hy
        have hgy := hgA y hy
        rw [e1, e3] at hgy
        rw [e2, e4]
        rw [get_put hlt, get_put (live_lt hal'), get_put (live_lt hal')]
        by_cases hyc : y = c
        · subst hyc
          by_cases hya : y = a
          · subst hya; simp [hc, hAlast, hgy]
          · have : ¬ (A.getLast? = some y) := by rw [hAlast]; simp; exact fun e => hya e.symm
            rw [if_neg this] at hgy
            rw [if_neg this]
            simp [hya, hgy, hc, hAlast]
        · have hc' : ¬ (A.head? = some y) := by rw [hc]; simp; exact fun e => hyc e.symm
          rw [if_neg hc'] at hgy
          rw [if_neg hc', if_neg hyc]
          by_cases hya : y = a
          · subst hya; simp [hAlast, hgy]
          · have : ¬ (A.getLast? = some y) := by rw [hAlast]; simp; exact fun e => hya e.symm
            rw [if_neg this] at hgy
            rw [if_neg this]
            simp [hya, hgy]
      · intro y hyp hyA _
        rw [get_put hlt, if_neg (fun e : y = c => hyA (e ▸ hcA)), get_put (live_lt hal'),
          if_neg (fun e : y = a => hyA (e ▸ haA))]
    | cons b B' =>
      simp only [List.head?_cons]
      rw [hAlast]
      have hbl := hlive b (hsibB b (by simp))
      have hab : a ≠ b := fun e => hAB a haA (by simp [e])
      have hpb : p ≠ b := fun e => hpB (by simp [e])
      have hxb : x ≠ b := fun e => hxB (by simp [e])
      rw [connect_pab hab hal' hbl]
      have hlt : b < (h.put a { h.get a with parent := some p, next := some b }).nbrs.length := by
        simpa using live_lt hbl
      have hh : (A ++ b :: B').head? = (A ++ x :: b :: B').head? := by
        cases A with
        | nil => simp at haA
        | cons c' l => rfl
      refine ⟨_, rfl, key _ (by simp) ?_ ?_ ?_ ?_ ?_⟩
      · rw [get_put hlt, if_neg hxb, get_put (live_lt hal'), if_neg hxa]
      · rw [get_put hlt, if_neg hpb, get_put (live_lt hal'), if_neg hpa', hh, ← hgp]
      · intro y hy
        have hyb : y ≠ b := fun e => hAB y hy (by simp [e])
        have e1 := pc_left (x :: b :: B') hy
        have e2 := pc_left (b :: B') hy
        have e3 := nx_left (x :: b :: B') hA hy
        have e4 := nx_left (b :: B') hA hy
        have hgy := hgA y hy
        rw [e1, e3] at hgy
        rw [e2, e4, get_put hlt, if_neg hyb, get_put (live_lt hal')]
        by_cases hya : y = a
        · subst hya; simp [hgy, hAlast]
        · have : ¬ (A.getLast? = some y) := by rw [hAlast]; simp; exact fun e => hya e.symm
          rw [if_neg this] at hgy ⊢
          simp [hgy, hya]
      · intro y hy
        have hyA : y ∉ A := fun hm => hAB y hm hy
        have hyx : y ≠ x := fun e => hxB (e ▸ hy)
        have hya : y ≠ a := fun e => hyA (e ▸ haA)
        have e0 : A ++ x :: b :: B' = (A ++ [x]) ++ b :: B' := by simp
        have hyAx : y ∉ A ++ [x] := by simp [hyA, hyx]
        have e1 := pc_right (b :: B') hyAx hy
        have e2 := pc_right (b :: B') hyA hy
        have e3 := nx_right (b :: B') hyAx
        have e4 := nx_right (b :: B') hyA
        have hgy := hgB y hy
        rw [e0, e1, e3] at hgy
        rw [e2, e4, get_put hlt, get_put (live_lt hal')]
        by_cases hyb : y = b
        · subst hyb
          simp [hgy, hAlast]
        · have : ¬ ((b :: B').head? = some y) := by simp; exact fun e => hyb e.symm
          rw [if_neg this] at hgy ⊢
          simp [hyb, hya, hgy]
      · intro y hyp hyA hyB
        rw [get_put hlt, if_neg (fun e => hyB (by simp [e])), get_put (live_lt hal'),
          if_neg (fun e : y = a => hyA (e ▸ haA))]

end Treena
