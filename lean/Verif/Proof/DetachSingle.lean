import Verif.Proof.Insert
/-! `detach_single`. -/
namespace Treena
open Hier Shape

namespace Shape
variable {s : Shape}

/-- `s` with the links from `x` to its parent and to its children cut. -/
def isolate (s : Shape) (x : Nat) : Shape :=
  { s with
    parent := fun y => if y = x ∨ y ∈ s.kids x then none else s.parent y
    kids := fun q => if q = x then [] else (s.kids q).erase x }

theorem Valid.isolate (hv : s.Valid) (x : Nat) : (s.isolate x).Valid where
  alive_lt := hv.alive_lt
  parent_alive := by
    intro y p h
    simp only [Shape.isolate] at h
    split at h
    · cases h
    · exact hv.parent_alive y p h
  mem_kids := by
    intro y p
    simp only [Shape.isolate]
    by_cases hp : p = x
    · subst hp
      simp only [if_true, List.not_mem_nil, false_iff]
      split
      · simp
      · rename_i hn
        intro e
        exact hn (.inr ((hv.mem_kids y p).2 e))
    · simp only [hp, if_false]
      rw [(hv.kids_nodup p).mem_erase_iff, hv.mem_kids]
      by_cases hy : y = x
      · simp [hy]
      · by_cases hk : y ∈ s.kids x
        · have := hv.kid_parent hk
          simp [hy, hk, this]; exact fun e => hp e.symm
        · simp [hy, hk]
  kids_nodup := by
    intro p
    simp only [Shape.isolate]
    split
    · simp
    · exact (hv.kids_nodup p).erase x
  rooted := fun y => by
    refine Rooted.mono (hv.rooted y) (fun z => ?_)
    simp only [Shape.isolate]
    split <;> simp

theorem AncOrSelf.of_isolate {x a y : Nat} (h : AncOrSelf (s.isolate x).parent a y) :
    AncOrSelf s.parent a y := by
  induction h with
  | refl => exact .refl
  | @step y p h _ ih =>
    simp only [Shape.isolate] at h
    split at h
    · cases h
    · exact .step h ih

theorem Valid.splice_eq (hv : s.Valid) {x p : Nat} (hp : s.parent x = some p) :
    s.splice x p = (s.isolate x).attachRange (s.kids x) p
      (before (s.kids p) x ++ (s.kids x ++ after (s.kids p) x)) := by
  have hpx := hv.parent_ne hp
  unfold splice Shape.attachRange Shape.isolate upd
  congr 1
  · funext y
    by_cases hy : y = x
    · subst hy; simp [hv.self_not_kid]
    · by_cases hk : y ∈ s.kids x <;> simp [hy, hk]
  · funext q
    by_cases hq : q = x
    · subst hq; simp [hpx.symm]
    · by_cases hq' : q = p
      · subst hq'; simp [hq]
      · simp only [hq, hq', if_false]
        rw [List.erase_of_not_mem]
        intro hm
        have := hv.kid_parent hm
        rw [hp] at this
        exact hq' (Option.some.inj this).symm

end Shape

variable {h : Hier} {s : Shape}

/-- Ancestors of the parent of `x` do not involve `x`. -/
theorem path_avoids (hv : s.Valid) {x p : Nat} {l : List Nat} (hp : s.parent x = some p)
    (hl : UpPath s.parent p l) : x ∉ l := fun hm =>
  (hv.rooted x).acyclic hp (hl.mem_iff.1 hm)

theorem detachSingle_splice (ha : Agrees h s) (hv : s.Valid) {x p : Nat}
    (hp : s.parent x = some p) (hC : s.kids x ≠ []) :
    ∃ h', detachSingle x h = .ok (.ok ()) h' ∧ Agrees h' (s.splice x p) ∧ (s.splice x p).Valid := by
  have hx : s.alive x = true := (hv.parent_alive x p hp).1
  have hpa : s.alive p = true := (hv.parent_alive x p hp).2
  have hxl := (ha.live_iff hv x).2 hx
  have hpx := hv.parent_ne hp
  obtain ⟨f, hf⟩ : ∃ f, (s.kids x).head? = some f := by
    cases e : s.kids x with
    | nil => exact absurd e hC
    | cons a l => exact ⟨a, rfl⟩
  have hfC : f ∈ s.kids x := List.mem_of_mem_head? hf
  obtain ⟨l, hl, hlC⟩ := getLast?_of_mem hfC
  have hCnd := hv.kids_nodup x
  have hCx : ∀ c, c ∈ s.kids x → c ≠ x := fun c hc e => hv.self_not_kid (x := x) (e ▸ hc)
  have hCp : p ∉ s.kids x := fun hm => by
    have := hv.kid_parent hm
    exact (hv.rooted x).acyclic hp (.step this .refl)
  obtain ⟨h1, hc1, hlen1, hgx1, hgo1⟩ := disconnect ha hv hp
  have hpar : (h.get x).parent = s.parent x := by rw [ha.get_alive hx]; rfl
  have hnx : (h.get x).next = s.next x := by rw [ha.get_alive hx]; rfl
  -- the children in `h1`
  have hg1C : ∀ c, c ∈ s.kids x → h1.get c = Neighbors.mk (some x) (pc (s.kids x) c) (nx (s.kids x) c) (s.kids c).head? := by
    intro c hc
    have hca : (s.detach x).alive c = true := hv.kid_alive hc
    have hcp : s.parent c = some x := hv.kid_parent hc
    have hcnp : s.parent c ≠ some p := by rw [hcp]; simp; exact hpx.symm
    have hcp' : c ≠ p := fun e => hCp (e ▸ hc)
    rw [hgo1 c (hCx c hc), entry_alive hca, hv.detach_link_other hp (hCx c hc) hcp' hcnp, link_child hcp]
  have hlive1 : ∀ y, s.alive y = true → h1.live y := by
    intro y hy
    by_cases e : y = x
    · subst e; unfold Hier.live; rw [hgx1]; exact hv.link_alive y
    · unfold Hier.live; rw [hgo1 y e, (hv.detach x).entry_isAlive]; exact hy
  have hCa : ∀ c, c ∈ s.kids x → s.alive c = true := fun c hc => hv.kid_alive hc
  have hf1 := hlive1 f (hCa f hfC)
  have hl1 := hlive1 l (hCa l hlC)
  have hx1 := hlive1 x hx
  have hp1 := hlive1 p hpa
  have hrange : rangeNew h1 f l = .ok (f, l) := by
    unfold rangeNew
    by_cases e : f = l
    · subst e
      simp [rangeSingle, (isAlive_iff h1 f).2 hf1]
    · have e1 : (h1.get f).getParent = .ok (some x) := by rw [getParent_live hf1, hg1C f hfC]
      have e2 : (h1.get l).getParent = .ok (some x) := by rw [getParent_live hl1, hg1C l hlC]
      simp [e, neighbors_live hf1, neighbors_live hl1, e1, e2]
  -- no loop is reported
  obtain ⟨pl, hpath⟩ := UpPath.exists_of_rooted (hv.rooted p)
  have hpathx := path_avoids hv hp hpath
  have hreads : ReadsPath h1 s.parent pl := by
    intro y hy
    have hya := (hpath.mem_iff.1 hy).alive hv hpa
    have hyx : y ≠ x := fun e => hpathx (e ▸ hy)
    refine ⟨hlive1 y hya, ?_⟩
    have hd : (s.detach x).alive y = true := hya
    rw [hgo1 y hyx, entry_alive hd]
    exact s.detach_parent hyx
  have hplen : pl.length ≤ s.size := hv.path_length hpath hpa
  have hcyc : wouldMakeCyclicLinks h1 f l p = .ok false := by
    unfold wouldMakeCyclicLinks
    simp only [neighbors_live hf1, expect_some, Ancestors.withStart]
    rw [(isAlive_iff h1 p).2 hp1]
    by_cases e : f = l
    · rw [if_pos e]
      simp only [Bool.not_true, Bool.false_eq_true, if_false]
      rw [ancestorsMeet_eq hpath hreads (by unfold loopFuel; omega)]
      congr 1
      rw [decide_eq_false_iff_not]
      intro hm
      exact hpathx (hpath.mem_iff.2 ((AncOrSelf.parent (hv.kid_parent hfC)).trans (hpath.mem_iff.1 hm)))
    · rw [if_neg e]
      have hgp : (h1.get f).getParent = .ok (some x) := by rw [getParent_live hf1, hg1C f hfC]
      simp only [hgp, expect_some, Bool.not_true, Bool.false_eq_true, if_false]
      rw [if_neg hpx.symm]
      have hpp := (hreads p (hpath.mem_iff.2 .refl)).2
      rw [ancestors_next_some hp1]
      simp only [expect_some]
      rw [hpp]
      cases hpath with
      | root h0 =>
        rw [h0, show 2 * loopFuel h1 = (2 * h1.nbrs.length + 3) + 1 by unfold loopFuel; omega]; simp [rangeLoop, Ancestors.next]
      | @step _ q l' h0 hpath' =>
        rw [h0]
        refine rangeLoop_eq hpath' (fun y hy => hreads y (by simp [hy])) (fun hm => hpathx (by simp [hm])) ?_
        unfold loopFuel; simp at hplen; omega
  -- disconnecting the range empties the child list of `x`
  have hprevf : (h1.get f).prevSibling h1 = .ok none := by
    have e1 : (h1.get f).prevCyc = some l := by
      rw [hg1C f hfC]; show pc _ _ = _; rw [pc_self hfC, if_pos hf, hl]
    rw [prevSibling_eq e1 hl1, hg1C l hlC]
    have : nx (s.kids x) l = none := by
      unfold nx; rw [List.head?_eq_none_iff, after_eq_nil_iff hCnd hlC]; exact hl
    simp [this]
  have hnextl : (h1.get l).nextSibling = .ok none := by
    rw [nextSibling_live hl1, hg1C l hlC]
    have : nx (s.kids x) l = none := by
      unfold nx; rw [List.head?_eq_none_iff, after_eq_nil_iff hCnd hlC]; exact hl
    simp [this]
  have hdisc : transplantDisconnect f l h1 = .ok () (h1.put x { h1.get x with first := none }) := by
    have hgp : (h1.get f).getParent = .ok (some x) := by rw [getParent_live hf1, hg1C f hfC]
    unfold transplantDisconnect
    simp only [M.run_bind, nbrOf_live hf1, M.read, hgp, hprevf, nbrOf_live hl1, hnextl]
    exact connect_p hx1
  generalize hh2 : h1.put x { h1.get x with first := none } = h2 at hdisc
  have hlen2 : h2.nbrs.length = s.size := by rw [← hh2]; simpa using hlen1
  have hget2 : ∀ y, h2.get y = if y = x then { h1.get x with first := none } else h1.get y := by
    intro y; rw [← hh2, get_put (live_lt hx1)]
  have hlive2 : ∀ c, c ∈ s.kids x → h2.live c := by
    intro c hc
    unfold Hier.live; rw [hget2 c, if_neg (hCx c hc)]; exact hlive1 c (hCa c hc)
  obtain ⟨h3, hrw, hlen3, hget3⟩ := rewriteParents_eq (P := p) (l := l) (f := f) hCnd hCp (h := h2)
    (fuel := h2.loopFuel) hf hl
    (by
      unfold loopFuel; rw [hlen2]
      have := nodup_length_le hCnd (fun c hc => hv.alive_lt c (hCa c hc))
      omega)
    hlive2
    (by
      intro c hc _
      rw [hget2 c, if_neg (hCx c hc), hg1C c hc])
  obtain ⟨A, B, hL, hprev, hnext, hA, hB, her⟩ := hv.split hp
  have hvi := hv.isolate x
  have hikids : (s.isolate x).kids p = A ++ B := by
    simp only [Shape.isolate]; rw [if_neg hpx, her]
  have hndp := hv.kids_nodup p
  rw [hL] at hndp
  have hxA : x ∉ A := fun hm => (List.nodup_append.1 hndp).2.2 x hm x (by simp) rfl
  have hxB : x ∉ B := (List.nodup_cons.1 (List.nodup_append.1 hndp).2.1).1
  have hnotx : ∀ y, y ∉ s.kids x → y ≠ x → (s.detach x).entry y = (s.isolate x).entry y := by
    intro y hyC hyx
    by_cases hy : s.alive y = true
    · have h1 : (s.detach x).alive y = true := hy
      have h2 : (s.isolate x).alive y = true := hy
      rw [entry_alive h1, entry_alive h2, link_eq, link_eq]
      have e1 : (s.isolate x).parent y = s.parent y := by simp [Shape.isolate, hyx, hyC]
      have e2 : (s.detach x).parent y = s.parent y := s.detach_parent hyx
      have e3 : (s.isolate x).sibs y = (s.detach x).sibs y := by
        unfold sibs; rw [e1, e2]
        cases e : s.parent y with
        | none => rfl
        | some q =>
          have hqx : q ≠ x := fun e' => hyC ((hv.mem_kids y x).2 (by rw [e, e']))
          simp [Shape.isolate, hqx, Shape.detach]
      have e4 : (s.isolate x).first y = (s.detach x).first y := by
        unfold first; simp [Shape.isolate, hyx, Shape.detach]
      rw [e1, e2, e3, e4]
    · have hy' : s.alive y = false := by simpa using hy
      rw [entry_dead (show (s.detach x).alive y = false from hy'),
        entry_dead (show (s.isolate x).alive y = false from hy')]
  obtain ⟨h4, hc4, hlen4, hE4, hg4⟩ := connect_range (h := h3) hvi (P := p) (f := f) (l := l)
    (A := A) (B := B) (C := s.kids x) (fun y => y = x) (by rw [hlen3]; exact hlen2)
    hpa hpx hCp hikids hf hl hCnd hCa
    (by intro c hc; simp [Shape.isolate, hc])
    (by intro a ha' e; exact hxA (e ▸ ha')) (by intro a ha' e; exact hxB (e ▸ ha')) hCx
    (by
      intro y hyC hyx
      rw [hget3 y, if_neg hyC, hget2 y, if_neg hyx, hgo1 y hyx, hnotx y hyC hyx])
    (by intro c hc; rw [hget3 c, if_pos hc])
    (by
      intro c hc
      rw [hget3 c, if_pos hc, hget2 c, if_neg (hCx c hc), hg1C c hc]
      simp only [Shape.isolate, if_neg (hCx c hc)]
      rw [List.erase_of_not_mem]
      intro hm
      have := hv.kid_parent hm
      exact (hv.rooted x).acyclic this (.step (hv.kid_parent hc) .refl))
    (by
      intro c hc _
      rw [hget3 c, if_pos hc, hget2 c, if_neg (hCx c hc), hg1C c hc])
    (by
      intro c hc hcf
      rw [hget3 c, if_pos hc, hget2 c, if_neg (hCx c hc), hg1C c hc]
      show pc _ _ = _
      rw [pc_self hc, hf, if_neg (fun e => hcf (Option.some.inj e).symm)])
    (by
      intro c hc
      unfold Hier.live
      rw [hget3 c, if_pos hc, hget2 c, if_neg (hCx c hc)]
      exact hlive1 c (hCa c hc))
  have hx4 : h4.get x = { s.link x with first := none } := by
    rw [hE4 x rfl, hget3 x, if_neg hv.self_not_kid, hget2 x, if_pos rfl, hgx1]
  have hx4l : h4.live x := by unfold Hier.live; rw [hx4]; exact hv.link_alive x
  have htrans : transplant f l p (s.prev x) (s.next x) h1 = .ok (.ok ()) h4 := by
    unfold transplant
    simp only [M.run_bind, M.read, hcyc]
    simp only [Bool.false_eq_true, if_false, M.run_bind, hdisc, M.read, hrw]
    rw [hprev, hnext, hc4]; rfl
  have hfl : (h.get x).firstLastChild h = .ok (some (f, l)) := by
    rw [ha.firstLastChild hv hx, hf, hl]; rfl
  have hspl := hv.splice_eq hp
  rw [hA, hB] at hspl
  have hvs : (s.splice x p).Valid := by
    rw [hspl]
    refine hvi.attachRange hpa hikids hCnd hCa (by intro c hc; simp [Shape.isolate, hc]) ?_
    intro c hc hanc
    have := AncOrSelf.of_isolate hanc
    exact (hv.rooted x).acyclic hp ((AncOrSelf.parent (hv.kid_parent hc)).trans this)
  have hfinal : ∀ y, (h4.put x { h4.get x with parent := none, next := none, prevCyc := some x }).get y
      = (s.splice x p).entry y := by
    intro y
    rw [get_put (live_lt hx4l)]
    split
    · rename_i e; subst e
      have hya : (s.splice y p).alive y = true := hx
      rw [entry_alive hya, link_root (s := s.splice y p) (by simp [splice]), hx4]
      simp [splice]
    · rename_i e
      rw [hg4 y e, hspl]
  refine ⟨h4.put x { h4.get x with parent := none, next := none, prevCyc := some x }, ?_,
    ⟨by rw [length_put]; exact hlen4, hfinal⟩, hvs⟩
  have hx5l : (h4.put x { h4.get x with parent := none, next := none, prevCyc := some x }).live x := by
    rw [live_put (live_lt hx4l), if_pos rfl]; rfl
  have hx5 : (h4.put x { h4.get x with parent := none, next := none, prevCyc := some x }).get x
      = { h4.get x with parent := none, next := none, prevCyc := some x } := by
    rw [get_put (live_lt hx4l), if_pos rfl]
  have hfc5 : ((h4.put x { h4.get x with parent := none, next := none, prevCyc := some x }).get x).firstChild
      = .ok none := by
    rw [firstChild_live hx5l, hx5, hx4]
  unfold detachSingle
  simp only [M.run_bind, nbrOf_live hxl, M.read, hfl, getParent_live hxl, hpar, hp,
    ha.prevSibling hv hx, nextSibling_live hxl, hnx, hc1, hrange, htrans, updNbr_live hx4l,
    nbrOf_live hx5l, hfc5]
  simp

theorem Shape.Valid.splice_nokids (hv : s.Valid) {x p : Nat} (hp : s.parent x = some p)
    (hC : s.kids x = []) : s.splice x p = s.detach x := by
  have hm := (hv.mem_kids x p).2 hp
  have hpx := hv.parent_ne hp
  unfold splice Shape.detach upd
  congr 1
  · funext y; simp [hC]
  · funext q
    by_cases hq : q = x
    · subst hq; simp [hC]
    · by_cases hq' : q = p
      · subst hq'; simp [hq, hC, erase_eq_before_after hm]
      · simp only [hq, hq', if_false]
        rw [List.erase_of_not_mem]
        intro h'
        exact hq' (hv.kids_disjoint h' hm)

/-- `detach_single` on a node with a parent. -/
theorem detachSingle_child (ha : Agrees h s) (hv : s.Valid) {x p : Nat}
    (hp : s.parent x = some p) :
    ∃ h', detachSingle x h = .ok (.ok ()) h' ∧ Agrees h' (s.splice x p) ∧ (s.splice x p).Valid := by
  by_cases hC : s.kids x = []
  · have hx : s.alive x = true := (hv.parent_alive x p hp).1
    have hxl := (ha.live_iff hv x).2 hx
    obtain ⟨h', hd, hag⟩ := detach_agrees ha hv hx
    rw [hv.splice_nokids hp hC]
    refine ⟨h', ?_, hag, hv.detach x⟩
    have hfl : (h.get x).firstLastChild h = .ok none := by
      rw [ha.firstLastChild hv hx, hC]; rfl
    unfold detachSingle
    simp only [M.run_bind, nbrOf_live hxl, M.read, hfl, hd]
    rfl
  · exact detachSingle_splice ha hv hp hC

/-- `detach_single` on a childless root. -/
theorem detachSingle_root_nil (ha : Agrees h s) (hv : s.Valid) {x : Nat} (hx : s.alive x = true)
    (hp : s.parent x = none) (hC : s.kids x = []) :
    detachSingle x h = .ok (.ok ()) h := by
  have hxl := (ha.live_iff hv x).2 hx
  obtain ⟨h', hd, hag⟩ := detach_agrees ha hv hx
  rw [hv.detach_root hp] at hag
  have : h' = h := hag.unique ha
  subst this
  have hfl : (h'.get x).firstLastChild h' = .ok none := by
    rw [ha.firstLastChild hv hx, hC]; rfl
  unfold detachSingle
  simp only [M.run_bind, nbrOf_live hxl, M.read, hfl, hd]
  rfl

/-- `detach_single` on a root with one child. -/
theorem detachSingle_root_one (ha : Agrees h s) (hv : s.Valid) {x c : Nat} (hx : s.alive x = true)
    (hp : s.parent x = none) (hC : s.kids x = [c]) :
    ∃ h', detachSingle x h = .ok (.ok ()) h' ∧ Agrees h' (s.detach c) := by
  have hxl := (ha.live_iff hv x).2 hx
  have hca : s.alive c = true := hv.kid_alive (p := x) (by simp [hC])
  obtain ⟨h1, hd1, hag1⟩ := detach_agrees ha hv hca
  obtain ⟨h2, hd2, hag2⟩ := detach_agrees hag1 (hv.detach c) (x := x) hx
  have hpc : (s.detach c).parent x = none := by
    simp only [Shape.detach, upd]; split
    · rfl
    · exact hp
  rw [(hv.detach c).detach_root hpc] at hag2
  refine ⟨h2, ?_, hag2⟩
  have hfl : (h.get x).firstLastChild h = .ok (some (c, c)) := by
    rw [ha.firstLastChild hv hx, hC]; rfl
  have hpar : (h.get x).parent = none := by rw [ha.get_alive hx]; exact hp
  unfold detachSingle
  simp only [M.run_bind, nbrOf_live hxl, M.read, hfl, getParent_live hxl, hpar]
  simp [hd1, hd2]

/-- `detach_single` on a root with several children. -/
theorem detachSingle_root_many (ha : Agrees h s) (hv : s.Valid) {x : Nat} (hx : s.alive x = true)
    (hp : s.parent x = none) (hC : 2 ≤ (s.kids x).length) :
    detachSingle x h = .ok (.error .siblingsWithoutParent) h := by
  have hxl := (ha.live_iff hv x).2 hx
  obtain ⟨a, b, r, e⟩ : ∃ a b r, s.kids x = a :: b :: r := by
    match hk : s.kids x with
    | [] => simp [hk] at hC
    | [_] => simp [hk] at hC
    | a :: b :: r => exact ⟨a, b, r, rfl⟩
  obtain ⟨z, hz, hzm⟩ := getLast?_of_mem (l := b :: r) (x := b) (by simp)
  have hnd := hv.kids_nodup x
  rw [e, List.nodup_cons] at hnd
  have haz : a ≠ z := fun e' => hnd.1 (e' ▸ hzm)
  have hfl : (h.get x).firstLastChild h = .ok (some (a, z)) := by
    rw [ha.firstLastChild hv hx, e]; simp [List.getLast?_cons_cons, hz]
  have hpar : (h.get x).parent = none := by rw [ha.get_alive hx]; exact hp
  unfold detachSingle
  simp only [M.run_bind, nbrOf_live hxl, M.read, hfl, getParent_live hxl, hpar]
  simp [haz]

end Treena
