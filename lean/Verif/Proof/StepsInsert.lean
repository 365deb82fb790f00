import Verif.Proof.StepsBase
import Verif.Proof.CreateInsert
/-! Exact step counts of `insert` and `create_insert`. -/

set_option autoImplicit false

namespace Treena.Steps
open Hier Shape

variable {h : Hier} {s : Shape}

theorem next_none : Ancestors.next h none = .ok (none, none) := rfl

theorem ancestorsMeet_miss {par : Nat → Option Nat} {r x : Nat} {l : List Nat}
    (hp : UpPath par x l) (hr : ReadsPath h par l) (hm : r ∉ l) : ∀ {fuel : Nat}, l.length < fuel →
    Counts (ancestorsMeet r fuel (some x)) (M.read fun h => Hier.ancestorsMeet h r fuel (some x)) h (l.length + 1) := by
  induction hp with
  | @root x h0 =>
    intro fuel hf n
    obtain ⟨hl, hpar⟩ := hr x (by simp)
    have hne : x ≠ r := fun e => hm (by simp [e])
    match fuel, hf with
    | fuel + 2, hf =>
      simp [ancestorsMeet, Hier.ancestorsMeet, M.read, free, tick, M.zoom, ancestors_next_some hl, hpar, h0, hne,
        next_none, Res.withCount]
    | 1, hf => simp at hf
  | @step x p l h0 hp ih =>
    intro fuel hf n
    obtain ⟨hl, hpar⟩ := hr x (by simp)
    have hne : x ≠ r := fun e => hm (by simp [e])
    match fuel, hf with
    | fuel + 1, hf =>
      have := ih (fun y hy => hr y (by simp [hy])) (fun e => hm (by simp [e])) (fuel := fuel) (by simp at hf; omega) (n + 1)
      simp [M.read] at this
      simp [ancestorsMeet, Hier.ancestorsMeet, M.read, free, tick, M.zoom, ancestors_next_some hl, hpar, h0, hne, this]
      congr 1; omega

theorem ancestorsMeet_hit {par : Nat → Option Nat} {r x : Nat} {l : List Nat}
    (hp : UpPath par x l) (hr : ReadsPath h par l) (hm : r ∈ l) : ∀ {fuel : Nat}, l.length < fuel →
    Counts (ancestorsMeet r fuel (some x)) (M.read fun h => Hier.ancestorsMeet h r fuel (some x)) h (l.idxOf r + 1) := by
  induction hp with
  | @root x h0 =>
    intro fuel hf n
    obtain ⟨hl, hpar⟩ := hr x (by simp)
    have hne : r = x := by simpa using hm
    subst hne
    match fuel, hf with
    | fuel + 1, hf =>
      simp [ancestorsMeet, Hier.ancestorsMeet, M.read, free, tick, M.zoom, ancestors_next_some hl, Res.withCount]
  | @step x p l h0 hp ih =>
    intro fuel hf n
    obtain ⟨hl, hpar⟩ := hr x (by simp)
    match fuel, hf with
    | fuel + 1, hf =>
      by_cases hne : x = r
      · subst hne
        simp [ancestorsMeet, Hier.ancestorsMeet, M.read, free, tick, M.zoom, ancestors_next_some hl, Res.withCount]
      · have hm' : r ∈ l := by
          rcases List.mem_cons.1 hm with e | e
          · exact absurd e.symm hne
          · exact e
        have := ih (fun y hy => hr y (by simp [hy])) hm' (fuel := fuel) (by simp at hf; omega) (n + 1)
        simp [M.read] at this
        simp [ancestorsMeet, Hier.ancestorsMeet, M.read, free, tick, M.zoom, ancestors_next_some hl, hpar, h0, hne, this,
          List.idxOf_cons_ne _ hne]
        congr 1; omega

theorem rangeLoop_miss {par : Nat → Option Nat} {first last rp x : Nat} {l : List Nat}
    (hp : UpPath par x l) (hr : ReadsPath h par l) (hm : rp ∉ l) {inner pa : Nat} : ∀ {fuel : Nat}, l.length < fuel →
    Counts (rangeLoop first last rp inner fuel (some x) pa)
      (M.read fun h => Hier.rangeLoop h first last rp inner fuel (some x) pa) h (l.length + 1) := by
  induction hp with
  | @root x h0 =>
    intro fuel hf n
    obtain ⟨hl, hpar⟩ := hr x (by simp)
    have hne : x ≠ rp := fun e => hm (by simp [e])
    match fuel, hf with
    | fuel + 2, hf =>
      simp [rangeLoop, Hier.rangeLoop, M.read, free, tick, M.zoom, ancestors_next_some hl, hpar, h0, hne,
        next_none, Res.withCount]
    | 1, hf => simp at hf
  | @step x p l h0 hp ih =>
    intro fuel hf n
    obtain ⟨hl, hpar⟩ := hr x (by simp)
    have hne : x ≠ rp := fun e => hm (by simp [e])
    match fuel, hf with
    | fuel + 1, hf =>
      have := ih (fun y hy => hr y (by simp [hy])) (fun e => hm (by simp [e])) (fuel := fuel) (by simp at hf; omega) (n + 1)
      simp [M.read] at this
      simp [rangeLoop, Hier.rangeLoop, M.read, free, tick, M.zoom, ancestors_next_some hl, hpar, h0, hne, this]
      congr 1; omega

theorem agrees_reads (ha : Agrees h s) (hv : s.Valid) {P : Nat} {l : List Nat} (hP : s.alive P = true)
    (hpath : UpPath s.parent P l) : ReadsPath h s.parent l := by
  intro y hy
  have hya := (hpath.mem_iff.1 hy).alive hv hP
  exact ⟨(ha.live_iff hv y).2 hya, by rw [ha.get_alive hya]; rfl⟩

/-- The loop test of a single node: the ancestors of the new parent are looked at until the node is met. -/
theorem wouldMakeCyclic_counts (ha : Agrees h s) (hv : s.Valid) {x P : Nat} {l : List Nat}
    (hx : s.alive x = true) (hP : s.alive P = true) (hpath : UpPath s.parent P l) :
    Counts (wouldMakeCyclicLinks x x P) (M.read fun h => Hier.wouldMakeCyclicLinks h x x P) h (l.idxOf x + 1) := by
  have hl := (ha.live_iff hv x).2 hx
  have hPl := (isAlive_iff h P).2 ((ha.live_iff hv P).2 hP)
  have hf : l.length < h.loopFuel := by
    have := hv.path_length hpath hP
    unfold loopFuel; rw [ha.1]; omega
  have hc : Counts (ancestorsMeet x h.loopFuel (some P)) (M.read fun h' => Hier.ancestorsMeet h' x h.loopFuel (some P)) h
      (l.idxOf x + 1) := by
    by_cases hm : x ∈ l
    · exact ancestorsMeet_hit hpath (agrees_reads ha hv hP hpath) hm hf
    · rw [List.idxOf_eq_length hm]
      exact ancestorsMeet_miss hpath (agrees_reads ha hv hP hpath) hm hf
  intro n
  have := hc n
  simp only [M.read] at this
  unfold wouldMakeCyclicLinks Hier.wouldMakeCyclicLinks
  simp [M.read, free, M.zoom, Hier.nbrOf, neighbors_live hl, Ancestors.withStart, hPl, this]

/-- The range is one node: one round of the rewriting loop. -/
theorem rewriteParents_one {x P : Nat} (hPx : x ≠ P) (hl : h.live x) :
    ∀ {fuel : Nat}, 0 < fuel → Counts (rewriteParents P x fuel (some x)) (Hier.rewriteParents P x fuel (some x)) h 1
  | fuel + 1, _ => by
    intro n
    simp [rewriteParents, Hier.rewriteParents, tick, free, M.zoom, hPx, updNbr_live hl, Res.withCount]

theorem transplant_loop_counts (ha : Agrees h s) (hv : s.Valid) {x P : Nat} {l : List Nat}
    (hx : s.alive x = true) (hP : s.alive P = true) (hpath : UpPath s.parent P l) (hcyc : x ∈ l) (prev next : Option Nat) :
    Counts (transplant x x P prev next) (Hier.transplant x x P prev next) h (l.idxOf x + 1) := by
  obtain ⟨b, hb, hiff⟩ := wouldMakeCyclic_single ha hv hx hP
  have : b = true := hiff.2 (hpath.mem_iff.1 hcyc)
  subst this
  have hc := wouldMakeCyclic_counts ha hv hx hP hpath
  unfold transplant Hier.transplant
  exact hc.bind_ok (a := true) (s' := h) (k' := 0) (by simp [M.read, hb]) (Counts.pure _ _)

theorem transplant_ok_counts (ha : Agrees h s) (hv : s.Valid) {x P : Nat} {l : List Nat}
    (hx : s.alive x = true) (hP : s.alive P = true) (hpath : UpPath s.parent P l) (hcyc : x ∉ l) (prev next : Option Nat) :
    Counts (transplant x x P prev next) (Hier.transplant x x P prev next) h (l.length + 2) := by
  obtain ⟨b, hb, hiff⟩ := wouldMakeCyclic_single ha hv hx hP
  have hb' : b = false := by
    cases b with
    | false => rfl
    | true => exact absurd (hpath.mem_iff.2 (hiff.1 rfl)) hcyc
  subst hb'
  obtain ⟨h1, hd, hlen1, hgx1, hgo1⟩ := transplantDisconnect_single ha hv hx
  have hl1 : h1.live x := by unfold Hier.live; rw [hgx1]; exact hv.link_alive x
  have hPx : x ≠ P := fun e => hcyc (e ▸ hpath.mem_iff.2 .refl)
  have hc := wouldMakeCyclic_counts ha hv hx hP hpath
  rw [List.idxOf_eq_length hcyc] at hc
  have hrw := rewriteParents_one hPx hl1 (fuel := h1.loopFuel) (by unfold loopFuel; omega)
  have hrun : ∃ h2, Hier.rewriteParents P x h1.loopFuel (some x) h1 = .ok () h2 := by
    obtain ⟨h2, hr, _⟩ := rewriteParents_eq (P := P) (l := x) (f := x) (C := [x])
      (by simp) (by simpa using hPx.symm) (h := h1) (fuel := h1.loopFuel) rfl rfl
      (by unfold loopFuel; simp) (by simpa using hl1) (by simp)
    exact ⟨h2, hr⟩
  obtain ⟨h2, hr2⟩ := hrun
  unfold transplant Hier.transplant
  refine hc.bind_ok (a := false) (s' := h) (k' := 1) (by simp [M.read, hb]) ?_
  simp only [Bool.false_eq_true, if_false]
  refine Counts.free_bind hd (Counts.free_bind (a := h1.loopFuel) (s' := h1) rfl ?_)
  refine hrw.bind_ok (k' := 0) hr2 ?_
  cases hc3 : transplantConnect x x P prev next h2 with
  | ok u h3 => exact Counts.free_bind hc3 (Counts.pure _ _)
  | fail e h3 => exact (Counts.free _ _).bind_fail hc3

/-- `insert` adds one step to `transplant`. -/
theorem hierInsert_run (ha : Agrees h s) (hv : s.Valid) {x P k : Nat} {d : InsertAs}
    (hx : s.alive x = true) (hanch : s.alive d.place.anchor = true)
    (hne : ∀ a, d.place = .before a ∨ d.place = .after a → x ≠ a) (hpp : s.placeParent d.place = some P)
    (hk : ∀ prev next, Counts (transplant x x P prev next) (Hier.transplant x x P prev next) h k) :
    Counts (hierInsert x d) (Hier.insert x d) h (k + 1) := by
  have hxl := (isAlive_iff h x).2 ((ha.live_iff hv x).2 hx)
  have hrs : rangeSingle h x = .ok (x, x) := by simp [rangeSingle, hxl]
  refine Counts.tick ?_
  cases d with
  | firstChildOf a =>
    have hal := (ha.live_iff hv a).2 hanch
    simp only [InsertAs.place, placeParent, Option.some.injEq] at hpp; subst hpp
    exact Counts.free_bind (nbrOf_live hal _) (Counts.free_bind (a := (h.get a).first) (s' := h) (by simp only [M.read, firstChild_live hal])
      (Counts.free_bind (s' := h) (a := (x, x)) (by simp only [M.read, hrs]) (hk _ _)))
  | lastChildOf a =>
    have hal := (ha.live_iff hv a).2 hanch
    simp only [InsertAs.place, placeParent, Option.some.injEq] at hpp; subst hpp
    exact Counts.free_bind (nbrOf_live hal _) (Counts.free_bind (a := (s.kids a).getLast?) (s' := h) (by simp only [M.read, ha.lastChild hv (show s.alive a = true from hanch)])
      (Counts.free_bind (s' := h) (a := (x, x)) (by simp only [M.read, hrs]) (hk _ _)))
  | previousSiblingOf a =>
    have hanch' : s.alive a = true := hanch
    have hal := (ha.live_iff hv a).2 hanch'
    have hxa : x ≠ a := hne a (.inl rfl)
    have hpar : (h.get a).parent = some P := by rw [ha.get_alive hanch']; exact hpp
    unfold Steps.insertBefore Hier.insert Hier.insertBefore
    simp only [if_neg hxa]
    exact Counts.free_bind (nbrOf_live hal _) (Counts.free_bind (s' := h) (a := some P)
      (by simp only [M.read, getParent_live hal, hpar])
      (Counts.free_bind (s' := h) (a := P) (by simp only [M.read, expect_some])
      (Counts.free_bind (a := s.prev a) (s' := h) (by simp only [M.read, ha.prevSibling hv hanch'])
      (Counts.free_bind (s' := h) (a := (x, x)) (by simp only [M.read, hrs]) (hk _ _)))))
  | nextSiblingOf a =>
    have hanch' : s.alive a = true := hanch
    have hal := (ha.live_iff hv a).2 hanch'
    have hxa : x ≠ a := hne a (.inr rfl)
    have hpar : (h.get a).parent = some P := by rw [ha.get_alive hanch']; exact hpp
    unfold Steps.insertAfter Hier.insert Hier.insertAfter
    simp only [if_neg hxa]
    exact Counts.free_bind (nbrOf_live hal _) (Counts.free_bind (s' := h) (a := some P)
      (by simp only [M.read, getParent_live hal, hpar])
      (Counts.free_bind (s' := h) (a := P) (by simp only [M.read, expect_some])
      (Counts.free_bind (a := (h.get a).next) (s' := h) (by simp only [M.read, nextSibling_live hal])
      (Counts.free_bind (s' := h) (a := (x, x)) (by simp only [M.read, hrs]) (hk _ _)))))

/-- An insertion that is possible, or fails because of a loop. -/
theorem hierInsert_counts (ha : Agrees h s) (hv : s.Valid) {x P : Nat} {d : InsertAs} {l : List Nat}
    (hx : s.alive x = true) (hanch : s.alive d.place.anchor = true)
    (hne : ∀ a, d.place = .before a ∨ d.place = .after a → x ≠ a) (hpp : s.placeParent d.place = some P)
    (hpath : UpPath s.parent P l) :
    Counts (hierInsert x d) (Hier.insert x d) h (if x ∈ l then l.idxOf x + 2 else l.length + 3) := by
  have hP := placeParent_alive hv hanch hpp
  split
  · rename_i hm
    exact hierInsert_run ha hv hx hanch hne hpp fun prev next => transplant_loop_counts ha hv hx hP hpath hm prev next
  · rename_i hm
    exact hierInsert_run ha hv hx hanch hne hpp fun prev next => transplant_ok_counts ha hv hx hP hpath hm prev next

/-- All other insertions fail at once. -/
theorem hierInsert_other (ha : Agrees h s) (hv : s.Valid) {x : Nat} {d : InsertAs}
    (ho : ¬ (s.alive x = true ∧ s.alive d.place.anchor = true ∧
      (∀ a, d.place = .before a ∨ d.place = .after a → x ≠ a) ∧ ∃ P, s.placeParent d.place = some P)) :
    Counts (hierInsert x d) (Hier.insert x d) h 1 := by
  have hdead : ∀ {y : Nat}, ¬ s.alive y = true → h.neighbors y = none := by
    intro y hy
    have : ¬ h.live y := fun e => hy ((ha.live_iff hv y).1 e)
    exact Hier.neighbors_dead this
  have hnb : ∀ {y : Nat} (msg : String), ¬ s.alive y = true → nbrOf y msg h = .fail (.panic msg) h := by
    intro y msg hy
    simp [nbrOf, M.read, hdead hy]
  have hrs : ¬ s.alive x = true → ∀ {α : Type} {fc : Nat × Nat → M (Hier × Nat) α} {f : Nat × Nat → M Hier α},
      Counts (free (M.read fun h => h.rangeSingle x) >>= fc) ((M.read fun h => h.rangeSingle x) >>= f) h 0 := by
    intro hy α fc f
    have hal : h.isAlive x = false := by
      cases e : h.isAlive x with
      | false => rfl
      | true => exact absurd ((ha.live_iff hv x).1 ((isAlive_iff h x).1 e)) hy
    exact (Counts.free _ _).bind_fail (e := .panic "[precondition] the node must be alive") (s' := h)
      (by simp [M.read, rangeSingle, hal])
  refine Counts.tick ?_
  by_cases hxa : s.alive d.place.anchor = true
  · cases d with
    | firstChildOf a =>
      have hal := (ha.live_iff hv a).2 hxa
      have hx : ¬ s.alive x = true := fun hx => ho ⟨hx, hxa, by simp [InsertAs.place], ⟨a, rfl⟩⟩
      exact Counts.free_bind (nbrOf_live hal _) (Counts.free_bind (a := (h.get a).first) (s' := h) (by simp only [M.read, firstChild_live hal]) (hrs hx))
    | lastChildOf a =>
      have hal := (ha.live_iff hv a).2 hxa
      have hx : ¬ s.alive x = true := fun hx => ho ⟨hx, hxa, by simp [InsertAs.place], ⟨a, rfl⟩⟩
      exact Counts.free_bind (nbrOf_live hal _) (Counts.free_bind (a := (s.kids a).getLast?) (s' := h) (by simp only [M.read, ha.lastChild hv (show s.alive a = true from hxa)]) (hrs hx))
    | previousSiblingOf a =>
      have hxa' : s.alive a = true := hxa
      have hal := (ha.live_iff hv a).2 hxa'
      unfold Steps.insertBefore Hier.insert Hier.insertBefore
      by_cases hne : x = a
      · simp only [if_pos hne]; exact Counts.pure _ _
      · simp only [if_neg hne]
        have hpar : (h.get a).parent = s.parent a := by rw [ha.get_alive hxa']; rfl
        refine Counts.free_bind (nbrOf_live hal _) (Counts.free_bind (s' := h) (a := s.parent a)
          (by simp only [M.read, getParent_live hal, hpar]) ?_)
        cases hp : s.parent a with
        | none =>
          exact (Counts.free _ _).bind_fail (e := .panic "[precondition] the parent must be alive to have siblings") (s' := h)
            (by simp [M.read])
        | some P =>
          have hx : ¬ s.alive x = true := fun hx => ho ⟨hx, hxa, fun b hb => by
            simp [InsertAs.place] at hb; exact hb ▸ hne, ⟨P, hp⟩⟩
          exact Counts.free_bind (s' := h) (a := P) (by simp only [M.read, expect_some])
            (Counts.free_bind (a := s.prev a) (s' := h) (by simp only [M.read, ha.prevSibling hv hxa']) (hrs hx))
    | nextSiblingOf a =>
      have hxa' : s.alive a = true := hxa
      have hal := (ha.live_iff hv a).2 hxa'
      unfold Steps.insertAfter Hier.insert Hier.insertAfter
      by_cases hne : x = a
      · simp only [if_pos hne]; exact Counts.pure _ _
      · simp only [if_neg hne]
        have hpar : (h.get a).parent = s.parent a := by rw [ha.get_alive hxa']; rfl
        refine Counts.free_bind (nbrOf_live hal _) (Counts.free_bind (s' := h) (a := s.parent a)
          (by simp only [M.read, getParent_live hal, hpar]) ?_)
        cases hp : s.parent a with
        | none =>
          exact (Counts.free _ _).bind_fail (e := .panic "[precondition] the parent must be alive to have siblings") (s' := h)
            (by simp [M.read])
        | some P =>
          have hx : ¬ s.alive x = true := fun hx => ho ⟨hx, hxa, fun b hb => by
            simp [InsertAs.place] at hb; exact hb ▸ hne, ⟨P, hp⟩⟩
          exact Counts.free_bind (s' := h) (a := P) (by simp only [M.read, expect_some])
            (Counts.free_bind (a := (h.get a).next) (s' := h) (by simp only [M.read, nextSibling_live hal]) (hrs hx))
  · cases d with
    | firstChildOf a => exact (Counts.free _ _).bind_fail (hnb _ hxa)
    | lastChildOf a => exact (Counts.free _ _).bind_fail (hnb _ hxa)
    | previousSiblingOf a =>
      unfold Steps.insertBefore Hier.insert Hier.insertBefore
      by_cases hne : x = a
      · simp only [if_pos hne]; exact Counts.pure _ _
      · simp only [if_neg hne]
        exact (Counts.free _ _).bind_fail (hnb _ hxa)
    | nextSiblingOf a =>
      unfold Steps.insertAfter Hier.insert Hier.insertAfter
      by_cases hne : x = a
      · simp only [if_pos hne]; exact Counts.pure _ _
      · simp only [if_neg hne]
        exact (Counts.free _ _).bind_fail (hnb _ hxa)

end Treena.Steps
