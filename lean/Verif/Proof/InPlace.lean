import Verif.Proof.Move
/-!
# `insert` to the place where the node already is

`SiblingsRange::transplant` (`hierarchy.rs` 839-849) skips one of its two reconnections when the requested
neighbour is the node itself, although the node was just cut out of its sibling list. -/
namespace Treena
open Shape Hier
variable {T : Type} {f : Forest T} {s : Shape}

/-! ### Public accessors on a raw arena -/

theorem acc_parent {x : Nat} (hl : f.hier.live x) : f.parentId x = .ok (f.hier.get x).parent := by
  simp [Forest.parentId, Forest.nbr, neighbors_live hl, getParent_live hl]
theorem acc_next {x : Nat} (hl : f.hier.live x) : f.nextSiblingId x = .ok (f.hier.get x).next := by
  simp [Forest.nextSiblingId, Forest.nbr, neighbors_live hl, nextSibling_live hl]
theorem acc_first {x : Nat} (hl : f.hier.live x) : f.firstChildId x = .ok (f.hier.get x).first := by
  simp [Forest.firstChildId, Forest.nbr, neighbors_live hl, firstChild_live hl]
theorem acc_prev {x v : Nat} (hx : (f.hier.get x).prevCyc = some v) (hv : f.hier.live v) :
    f.prevSiblingId x = .ok ((f.hier.get v).next.bind fun _ => some v) := by
  have hl : f.hier.live x := live_iff_prevCyc.2 ⟨_, hx⟩
  simp [Forest.prevSiblingId, Forest.nbr, neighbors_live hl, prevSibling_eq hx hv]
theorem acc_last {x c l : Nat} (hx : f.hier.live x) (hc : (f.hier.get x).first = some c)
    (hl : (f.hier.get c).prevCyc = some l) : f.lastChildId x = .ok (some l) := by
  simp [Forest.lastChildId, Forest.nbr, neighbors_live hx, lastChild_some hx hc hl]

/-! ### In-place requests -/

/-- What "already there" means for the child list of the parent. -/
theorem Shape.Valid.at_split (hv : s.Valid) {x : Nat} {pl : Place} (hat : s.At x pl) :
    ∃ P A B, s.placeParent pl = some P ∧ s.kids P = A ++ x :: B ∧
      (match pl with
        | .firstChildOf a => a = P ∧ A = []
        | .lastChildOf a => a = P ∧ B = []
        | .before a => ∃ B', B = a :: B'
        | .after a => ∃ A', A = A' ++ [a]) := by
  cases pl with
  | firstChildOf a =>
    simp only [Shape.At, Shape.first] at hat
    cases e : s.kids a with
    | nil => simp [e] at hat
    | cons b l =>
      simp [e] at hat; subst hat
      exact ⟨a, [], l, rfl, by simpa using e, rfl, rfl⟩
  | lastChildOf a =>
    simp only [Shape.At, Shape.last] at hat
    rcases snoc_cases (s.kids a) with e | ⟨l, b, e⟩
    · simp [e] at hat
    · simp [e] at hat; subst hat
      exact ⟨a, l, [], rfl, by simpa using e, rfl, rfl⟩
  | before a =>
    simp only [Shape.At, Shape.prev] at hat
    cases e : s.parent a with
    | none => simp [sibs_root e] at hat
    | some P =>
      rw [sibs_child e] at hat
      have hm : a ∈ s.kids P := (hv.mem_kids a P).2 e
      have d := before_after hm
      rcases snoc_cases (Treena.before (s.kids P) a) with e' | ⟨l, b, e'⟩
      · simp [e'] at hat
      · rw [e'] at hat d; simp at hat; subst hat
        exact ⟨P, l, a :: Treena.after (s.kids P) a, e, by simpa using d.symm, _, rfl⟩
  | after a =>
    simp only [Shape.At, Shape.next] at hat
    cases e : s.parent a with
    | none => simp [sibs_root e] at hat
    | some P =>
      rw [sibs_child e] at hat
      have hm : a ∈ s.kids P := (hv.mem_kids a P).2 e
      have d := before_after hm
      cases e' : Treena.after (s.kids P) a with
      | nil => simp [e'] at hat
      | cons b l =>
        rw [e'] at hat d; simp at hat; subst hat
        exact ⟨P, Treena.before (s.kids P) a ++ [a], l, e, by simpa using d.symm, _, rfl⟩

/-- The arena before the final reconnections of an in-place request. -/
structure Cut (s : Shape) (x P : Nat) (A B : List Nat) (h2 : Hier) : Prop where
  len : h2.nbrs.length = s.size
  self : h2.get x = s.link x
  rest : ∀ y, y ≠ x → h2.get y = (s.detach x).entry y

section cut
variable {x P : Nat} {A B : List Nat} {h2 : Hier}

theorem Shape.Valid.mid_not_mem (hv : s.Valid) (hk : s.kids P = A ++ x :: B) : x ∉ A ∧ x ∉ B := by
  have h := hv.kids_nodup P
  rw [hk, List.nodup_append] at h
  exact ⟨fun hm => h.2.2 x hm x (by simp) rfl, (List.nodup_cons.1 h.2.1).1⟩

theorem Shape.detach_kids_mid (hv : s.Valid) (hk : s.kids P = A ++ x :: B) :
    (s.detach x).kids P = A ++ B := by
  show (s.kids P).erase x = _
  rw [hk]; exact erase_mid (hv.mid_not_mem hk).1

theorem Cut.kid (hc : Cut s x P A B h2) (hv : s.Valid) (hk : s.kids P = A ++ x :: B) {y : Nat}
    (hy : y ∈ A ++ B) : h2.get y = Neighbors.mk (some P) (pc (A ++ B) y) (nx (A ++ B) y) ((s.detach x).kids y).head? := by
  have hd := Shape.detach_kids_mid hv hk
  have hvd := hv.detach x
  have hmem : y ∈ (s.detach x).kids P := by rw [hd]; exact hy
  have hne : y ≠ x := by
    intro e; subst e
    have := hv.mid_not_mem hk
    simp at hy; tauto
  rw [hc.rest y hne, entry_alive (hvd.kid_alive hmem), link_child (hvd.kid_parent hmem), hd]

theorem Cut.par (hc : Cut s x P A B h2) (hv : s.Valid) (hk : s.kids P = A ++ x :: B) :
    h2.live P ∧ (h2.get P).first = (A ++ B).head? := by
  have hx : s.parent x = some P := hv.kid_parent (by rw [hk]; simp)
  have hPa := (hv.parent_alive x P hx).2
  have hne := hv.parent_ne hx
  have hg := hc.rest P hne
  rw [entry_alive (s := s.detach x) hPa] at hg
  constructor
  · unfold Hier.live; rw [hg]; exact (hv.detach x).link_alive P
  · rw [hg]; show ((s.detach x).kids P).head? = _
    rw [Shape.detach_kids_mid hv hk]

theorem Cut.liveSelf (hc : Cut s x P A B h2) (hv : s.Valid) : h2.live x := by
  unfold Hier.live; rw [hc.self]; exact hv.link_alive x

theorem Cut.liveKid (hc : Cut s x P A B h2) (hv : s.Valid) (hk : s.kids P = A ++ x :: B) {y : Nat}
    (hy : y ∈ A ++ B) : h2.live y := by
  rw [live_iff_prevCyc, hc.kid hv hk hy]
  obtain ⟨z, hz, _⟩ := pc_some hy
  exact ⟨z, hz⟩

end cut

/-- Running an in-place request up to the final reconnections. -/
theorem inplace_run (hm : Models f s) {x : Nat} {d : InsertAs} (hat : s.At x d.place) :
    ∃ P A B h2, s.placeParent d.place = some P ∧ s.kids P = A ++ x :: B ∧ Cut s x P A B h2 ∧
      (match d with
        | .firstChildOf a => a = P ∧ A = []
        | .lastChildOf a => a = P ∧ B = []
        | .previousSiblingOf a => ∃ B', B = a :: B'
        | .nextSiblingOf a => ∃ A', A = A' ++ [a]) ∧
      Forest.insert x d f =
        match (match d with
          | .firstChildOf _ => transplantConnect x x P none (some x) h2
          | .lastChildOf _ => transplantConnect x x P (some x) none h2
          | .previousSiblingOf a => transplantConnect x x P (some x) (some a) h2
          | .nextSiblingOf a => transplantConnect x x P (some a) (some x) h2) with
        | .ok _ h3 => .ok (.ok ()) { f with hier := h3 }
        | .fail e h3 => .fail e { f with hier := h3 } := by
  have hv := hm.valid
  obtain ⟨P, A, B, hpp, hk, hcase⟩ := hv.at_split hat
  have hpx : s.parent x = some P := hv.kid_parent (by rw [hk]; simp)
  have hal := hv.parent_alive x P hpx
  have hcyc := (hv.rooted x).acyclic hpx
  obtain ⟨h2, hrun, hlen, hgx, hgo⟩ := transplant_prefix hm.agrees hv hal.1 hal.2 hcyc
  have hnm := hv.mid_not_mem hk
  have hcut : Cut s x P A B h2 := by
    refine ⟨hlen, ?_, hgo⟩
    rw [hgx, link_child hpx]
  have hanch : s.alive d.place.anchor = true := by
    cases d with
    | firstChildOf a => cases hcase.1; exact hal.2
    | lastChildOf a => cases hcase.1; exact hal.2
    | previousSiblingOf a => exact (hv.parent_alive a P hpp).1
    | nextSiblingOf a => exact (hv.parent_alive a P hpp).1
  have hne : ∀ a, d.place = .before a ∨ d.place = .after a → x ≠ a := by
    intro a h e
    cases d with
    | firstChildOf b => rcases h with h | h <;> cases h
    | lastChildOf b => rcases h with h | h <;> cases h
    | previousSiblingOf b =>
      rcases h with h | h
      · cases h; obtain ⟨B', rfl⟩ := hcase; subst e; simp at hnm
      · cases h
    | nextSiblingOf b =>
      rcases h with h | h
      · cases h
      · cases h; obtain ⟨A', rfl⟩ := hcase; subst e; simp at hnm
  have hir := insert_run hm.agrees hv (d := d) hal.1 hanch hne
  rw [hpp] at hir
  refine ⟨P, A, B, h2, hpp, hk, hcut, ?_, ?_⟩
  · cases d <;> exact hcase
  · unfold Forest.insert
    cases d with
    | firstChildOf a =>
      simp only [InsertAs.place, Shape.At] at hir hat
      rw [hat, hrun] at hir
      unfold Forest.onHier M.zoom; rw [hir]
      cases e : transplantConnect x x P none (some x) h2 <;> simp only [e]
    | lastChildOf a =>
      simp only [InsertAs.place, Shape.At] at hir hat
      rw [hat, hrun] at hir
      unfold Forest.onHier M.zoom; rw [hir]
      cases e : transplantConnect x x P (some x) none h2 <;> simp only [e]
    | previousSiblingOf a =>
      simp only [InsertAs.place, Shape.At] at hir hat
      rw [hat, hrun] at hir
      unfold Forest.onHier M.zoom; rw [hir]
      cases e : transplantConnect x x P (some x) (some a) h2 <;> simp only [e]
    | nextSiblingOf a =>
      simp only [InsertAs.place, Shape.At] at hir hat
      rw [hat, hrun] at hir
      unfold Forest.onHier M.zoom; rw [hir]
      cases e : transplantConnect x x P (some a) (some x) h2 <;> simp only [e]

theorem tc_skipNext {x P : Nat} {prev : Option Nat} (h : prev ≠ some x) (h2 : Hier) :
    transplantConnect x x P prev (some x) h2 = connectTriangle (some P) prev (some x) h2 := by
  unfold transplantConnect
  rw [if_pos h, if_neg (by simp), M.run_bind]
  cases connectTriangle (some P) prev (some x) h2 <;> rfl

theorem tc_skipPrev {x P : Nat} {next : Option Nat} (h : next ≠ some x) (h2 : Hier) :
    transplantConnect x x P (some x) next h2 = connectTriangle (some P) (some x) next h2 := by
  unfold transplantConnect
  rw [if_neg (by simp), if_pos h]

/-- In-place `FirstChildOf`. -/
theorem inplace_first (hm : Models f s) {x P : Nat} {B : List Nat} (hk : s.kids P = x :: B) :
    ∃ f', Forest.insert x (.firstChildOf P) f = .ok (.ok ()) f' ∧ f'.data = f.data ∧
      (B = [] → f' = f) ∧
      ∀ y B', B = y :: B' → f'.nextSiblingId x = .ok (some y) ∧ f'.prevSiblingId y = .ok none := by
  have hv := hm.valid
  obtain ⟨P', A, B0, h2, hpp, hk0, hc, hcase, hrun⟩ :=
    inplace_run hm (x := x) (d := .firstChildOf P) (by simp [InsertAs.place, Shape.At, Shape.first, hk])
  obtain ⟨rfl, rfl⟩ := hcase
  rw [hk] at hk0
  simp at hk0; subst hk0
  have hk' : s.kids P = [] ++ x :: B := hk
  have hpx : s.parent x = some P := hv.kid_parent (by rw [hk]; simp)
  have hne : P ≠ x := hv.parent_ne hpx
  obtain ⟨hPl, hPf⟩ := hc.par hv hk'
  have hxl := hc.liveSelf hv
  have hlast : (h2.get P).lastChild h2 = .ok B.getLast? := by
    cases hB : B with
    | nil => rw [lastChild_none hPl (by rw [hPf, hB]; rfl)]; rfl
    | cons y B' =>
      obtain ⟨z, hz, _⟩ := getLast?_of_mem (l := y :: B') (x := y) (by simp)
      rw [lastChild_some hPl (c := y) (l := z) (by rw [hPf, hB]; rfl) ?_, hz]
      rw [hc.kid hv hk' (by simp [hB])]
      show pc ([] ++ B) y = _
      rw [List.nil_append, pc_self (by simp [hB]), hB]; simp [hz]
  have hcon := connect_pb hne hPl hxl hlast
  rw [tc_skipNext (by simp), hcon] at hrun
  refine ⟨_, hrun, rfl, ?_, ?_⟩
  · intro hB
    subst hB
    have hP := hc.rest P hne
    have hPa := (hv.parent_alive x P hpx).2
    rw [entry_alive (s := s.detach x) hPa, hv.detach_link_parent hpx] at hP
    have he : (h2.put x { h2.get x with parent := some P, prevCyc := some (([] : List Nat).getLast?.getD x) }).put P
        { h2.get P with first := some x } = f.hier := by
      refine ext_get (by simp [hc.len, hm.agrees.1]) fun y => ?_
      rw [get_put (by simpa using live_lt hPl), get_put (live_lt hxl), hm.agrees.2 y]
      by_cases hy : y = P
      · subst hy
        rw [if_pos rfl, hP, entry_alive hPa, link_eq]
        simp [Shape.first, hk]
      · rw [if_neg hy]
        by_cases hyx : y = x
        · subst hyx
          rw [if_pos rfl, hc.self, entry_alive (hv.parent_alive y P hpx).1, link_child hpx]
          simp [hk, pc, pv]
        · rw [if_neg hyx, hc.rest y hyx]
          cases hal : s.alive y with
          | false => rw [entry_dead hal, entry_dead (s := s.detach x) hal]
          | true =>
            rw [entry_alive hal, entry_alive (s := s.detach x) hal]
            refine hv.detach_link_other hpx hyx hy ?_
            intro h
            have := (hv.mem_kids y P).2 h
            rw [hk] at this; simp at this; exact hyx this
    rw [he]
  · intro y B' hB
    have hyB : y ∈ [] ++ B := by simp [hB]
    have hnm := hv.mid_not_mem hk'
    have hyx : y ≠ x := fun e => hnm.2 (by rw [← e]; simpa using hyB)
    have hyP : y ≠ P := by
      intro e; rw [e] at hyB
      exact hv.self_not_kid (x := P) (by rw [hk]; exact List.mem_cons_of_mem _ (by simpa using hyB))
    obtain ⟨z, hz, hzB⟩ := getLast?_of_mem (l := B) (x := y) (by simp [hB])
    have hzx : z ≠ x := fun e => hnm.2 (e ▸ hzB)
    have hzP : z ≠ P := by
      intro e; rw [e] at hzB
      exact hv.self_not_kid (x := P) (by rw [hk]; exact List.mem_cons_of_mem _ hzB)
    set h3 := (h2.put x { h2.get x with parent := some P, prevCyc := some (B.getLast?.getD x) }).put P
        { h2.get P with first := some x } with hh3
    have hget : ∀ w, h3.get w = if w = P then { h2.get P with first := some x } else
        if w = x then { h2.get x with parent := some P, prevCyc := some (B.getLast?.getD x) } else h2.get w := by
      intro w
      rw [hh3, get_put (by simpa using live_lt hPl), get_put (live_lt hxl)]
    have hx3 : h3.live x := by
      unfold Hier.live; rw [hget, if_neg (Ne.symm hne), if_pos rfl]; rfl
    constructor
    · rw [acc_next (f := { f with hier := h3 }) hx3]
      show Except.ok (h3.get x).next = _
      rw [hget, if_neg (Ne.symm hne), if_pos rfl, hc.self, link_child hpx]
      show Except.ok (nx (s.kids P) x) = _
      rw [hk, hB]; simp [nx]
    · have hzl : h3.live z := by
        unfold Hier.live; rw [hget, if_neg hzP, if_neg hzx]
        exact hc.liveKid hv hk' (by simpa using hzB)
      have hyc : (h3.get y).prevCyc = some z := by
        rw [hget, if_neg hyP, if_neg hyx, hc.kid hv hk' hyB]
        show pc ([] ++ B) y = _
        rw [List.nil_append, pc_self (by simp [hB])]; simp [hB]; rw [← hB]; exact hz
      rw [acc_prev (f := { f with hier := h3 }) hyc hzl]
      show Except.ok ((h3.get z).next.bind _) = _
      rw [hget, if_neg hzP, if_neg hzx, hc.kid hv hk' (by simpa using hzB)]
      have : nx ([] ++ B) z = none := by
        unfold nx
        rw [List.nil_append, (after_eq_nil_iff ?_ hzB).2 hz]; · rfl
        have := hv.kids_nodup P
        rw [hk] at this; exact (List.nodup_cons.1 this).2
      rw [this]; rfl

/-- In-place `LastChildOf` of an only child: a panic after the child list of the parent was emptied. -/
theorem inplace_last_only (hm : Models f s) {x P : Nat} (hk : s.kids P = [x]) :
    ∃ f', Forest.insert x (.lastChildOf P) f =
        .fail (.panic "[consistency] `parent` must have a child including `prev_child`") f' ∧ f'.data = f.data ∧
      f'.firstChildId P = .ok none ∧ f'.parentId x = .ok (some P) := by
  have hv := hm.valid
  obtain ⟨P', A, B0, h2, hpp, hk0, hc, hcase, hrun⟩ :=
    inplace_run hm (x := x) (d := .lastChildOf P) (by simp [InsertAs.place, Shape.At, Shape.last, hk])
  obtain ⟨rfl, rfl⟩ := hcase
  have hA : A = [] := by
    rw [hk] at hk0
    have := congrArg List.length hk0
    cases A with
    | nil => rfl
    | cons a l => simp at this
  subst hA
  have hpx : s.parent x = some P := hv.kid_parent (by rw [hk]; simp)
  have hne : P ≠ x := hv.parent_ne hpx
  obtain ⟨hPl, hPf⟩ := hc.par hv hk0
  have hxl := hc.liveSelf hv
  set h3 := h2.put x { h2.get x with parent := some P, next := none } with hh3
  have hg3 : h3.get P = h2.get P := by rw [hh3, get_put (live_lt hxl), if_neg hne]
  have hP3 : h3.live P := by unfold Hier.live; rw [hg3]; exact hPl
  have hx3 : h3.live x := by
    unfold Hier.live; rw [hh3, get_put (live_lt hxl), if_pos rfl]; exact hxl
  have hcon : connectTriangle (some P) (some x) none h2 =
      .fail (.panic "[consistency] `parent` must have a child including `prev_child`") h3 := by
    have hfc := firstChild_live hP3
    rw [hg3, hPf] at hfc
    simp [connectTriangle, connectPrev, connectNext, connectParent, updNbr_live hxl, ← hh3, M.read,
      nbrOf_live hP3, hg3, hfc]
  rw [tc_skipPrev (by simp), hcon] at hrun
  refine ⟨_, hrun, rfl, ?_, ?_⟩
  · rw [acc_first (f := { f with hier := h3 }) hP3]
    show Except.ok (h3.get P).first = _
    rw [hg3, hPf]; rfl
  · rw [acc_parent (f := { f with hier := h3 }) hx3]
    show Except.ok (h3.get x).parent = _
    rw [hh3, get_put (live_lt hxl), if_pos rfl]

/-- In-place `LastChildOf` with preceding siblings. -/
theorem inplace_last (hm : Models f s) {x p P : Nat} {A : List Nat} (hk : s.kids P = A ++ [p, x]) :
    ∃ f', Forest.insert x (.lastChildOf P) f = .ok (.ok ()) f' ∧ f'.data = f.data ∧
      f'.lastChildId P = .ok (some x) ∧ f'.parentId p = .ok (some P) ∧ f'.nextSiblingId p = .ok none ∧
      p ≠ x := by
  have hv := hm.valid
  obtain ⟨P', A0, B0, h2, hpp, hk0, hc, hcase, hrun⟩ :=
    inplace_run hm (x := x) (d := .lastChildOf P) (by simp [InsertAs.place, Shape.At, Shape.last, hk])
  obtain ⟨rfl, rfl⟩ := hcase
  have hA : A0 = A ++ [p] := by
    have : A ++ [p] ++ [x] = A0 ++ [x] := by rw [← hk0, hk]; simp
    exact (List.append_cancel_right this).symm
  subst hA
  have hpx : s.parent x = some P := hv.kid_parent (by rw [hk]; simp)
  have hne : P ≠ x := hv.parent_ne hpx
  obtain ⟨hPl, hPf⟩ := hc.par hv hk0
  have hxl := hc.liveSelf hv
  have hnm := hv.mid_not_mem hk0
  have hnd : (A ++ [p]).Nodup := by
    have := hv.kids_nodup P
    rw [hk0] at this; exact (List.nodup_append.1 this).1
  obtain ⟨c, hc0⟩ : ∃ c, (A ++ [p]).head? = some c := by
    cases A with
    | nil => exact ⟨p, rfl⟩
    | cons a l => exact ⟨a, rfl⟩
  have hcm : c ∈ A ++ [p] := List.mem_of_head? hc0
  have hcx : c ≠ x := fun e => hnm.1 (e ▸ hcm)
  have hpm : p ∈ A ++ [p] := by simp
  have hpx' : p ≠ x := fun e => hnm.1 (e ▸ hpm)
  have hpP : p ≠ P := by
    intro e
    exact hv.self_not_kid (x := P) (by rw [hk]; simp [e])
  have hcP : c ≠ P := by
    intro e
    exact hv.self_not_kid (x := P) (by rw [hk0]; rw [e] at hcm; exact List.mem_append_left _ hcm)
  have hcl := hc.liveKid hv hk0 (y := c) (by simpa using hcm)
  have hcon := connect_pa hne hxl hPl hcl (by rw [hPf]; simpa using hc0)
  rw [tc_skipPrev (by simp), hcon] at hrun
  refine ⟨_, hrun, rfl, ?_⟩
  set h3 := (h2.put x { h2.get x with parent := some P, next := none }).put c
        { (h2.put x { h2.get x with parent := some P, next := none }).get c with prevCyc := some x } with hh3
  have hget : ∀ w, h3.get w = if w = c then { h2.get c with prevCyc := some x } else
      if w = x then { h2.get x with parent := some P, next := none } else h2.get w := by
    intro w
    rw [hh3, get_put (by simpa using live_lt hcl), get_put (live_lt hxl), get_put (live_lt hxl), if_neg hcx]
  have hP3 : h3.get P = h2.get P := by rw [hget, if_neg (Ne.symm hcP), if_neg hne]
  have hgp := hc.kid hv hk0 (y := p) (by simpa using hpm)
  have hpl : h3.live p := by
    unfold Hier.live; rw [hget]
    split
    · rfl
    · exact hc.liveKid hv hk0 (by simp)
  have hpp3 : (h3.get p).parent = some P ∧ (h3.get p).next = none := by
    have hn : nx (A ++ [p] ++ []) p = none := by
      unfold nx; rw [List.append_nil, (after_eq_nil_iff hnd hpm).2 (by simp)]; rfl
    rw [hget]
    split
    · rename_i e; rw [← e, hgp]; exact ⟨rfl, hn⟩
    · rw [hgp]; exact ⟨rfl, hn⟩
  refine ⟨?_, ?_, ?_, hpx'⟩
  · refine acc_last (f := { f with hier := h3 }) (c := c) ?_ ?_ ?_
    · show (h3.get P).isAlive = true
      rw [hP3]; exact hPl
    · show (h3.get P).first = _
      rw [hP3, hPf]; simpa using hc0
    · show (h3.get c).prevCyc = _
      rw [hget, if_pos rfl]
  · rw [acc_parent (f := { f with hier := h3 }) hpl]; exact congrArg _ hpp3.1
  · rw [acc_next (f := { f with hier := h3 }) hpl]; exact congrArg _ hpp3.2

/-- In-place `PreviousSiblingOf`. -/
theorem inplace_before (hm : Models f s) {x a P : Nat} {A B : List Nat} (hk : s.kids P = A ++ x :: a :: B) :
    ∃ f', Forest.insert x (.previousSiblingOf a) f = .ok (.ok ()) f' ∧ f'.data = f.data ∧
      f'.prevSiblingId a = .ok (some x) ∧
      (∀ A' p, A = A' ++ [p] → f'.nextSiblingId p = .ok (some a) ∧ p ≠ x) ∧
      (A = [] → f'.firstChildId P = .ok (some a)) := by
  have hv := hm.valid
  have hnext : s.prev a = some x := prev_mid hv hk
  obtain ⟨P', A0, B0, h2, hpp, hk0, hc, hcase, hrun⟩ :=
    inplace_run hm (x := x) (d := .previousSiblingOf a) hnext
  obtain ⟨B', rfl⟩ := hcase
  have hap : s.parent a = some P := hv.kid_parent (by rw [hk]; simp)
  have hPP : P' = P := by
    have : s.parent a = some P' := hpp
    rw [hap] at this; exact (Option.some.inj this).symm
  subst hPP
  have hnm0 := hv.mid_not_mem hk0
  have hnm := hv.mid_not_mem hk
  have hAB : A = A0 ∧ B = B' := by
    have h1 := congrArg (fun l => Treena.before l x) (hk.symm.trans hk0)
    have h2 := congrArg (fun l => Treena.after l x) (hk.symm.trans hk0)
    simp only [before_eq hnm.1, before_eq hnm0.1] at h1
    simp only [after_eq hnm.1, after_eq hnm0.1] at h2
    exact ⟨h1, by simpa using h2⟩
  obtain ⟨rfl, rfl⟩ := hAB
  have hpx : s.parent x = some P' := hv.kid_parent (by rw [hk]; simp)
  have hne : P' ≠ x := hv.parent_ne hpx
  obtain ⟨hPl, hPf⟩ := hc.par hv hk
  have hxl := hc.liveSelf hv
  have hxa : x ≠ a := by intro e; exact hnm.2 (by simp [e])
  have hal := hc.liveKid hv hk (y := a) (by simp)
  have haP : a ≠ P' := (hv.parent_ne hap).symm
  have hcon := connect_pab (p := P') hxa hxl hal
  dsimp only at hrun
  rw [tc_skipPrev (by simpa using Ne.symm hxa), hcon] at hrun
  refine ⟨_, hrun, rfl, ?_⟩
  set h3 := (h2.put x { h2.get x with parent := some P', next := some a }).put a
        { h2.get a with parent := some P', prevCyc := some x } with hh3
  have hget : ∀ w, h3.get w = if w = a then { h2.get a with parent := some P', prevCyc := some x } else
      if w = x then { h2.get x with parent := some P', next := some a } else h2.get w := by
    intro w
    rw [hh3, get_put (by simpa using live_lt hal), get_put (live_lt hxl)]
  have hnd : (A ++ a :: B).Nodup := by
    have := (hv.detach x).kids_nodup P'
    rw [Shape.detach_kids_mid hv hk] at this; exact this
  refine ⟨?_, ?_, ?_⟩
  · have h1 : (h3.get a).prevCyc = some x := by rw [hget, if_pos rfl]
    have h2' : h3.live x := by unfold Hier.live; rw [hget, if_neg hxa, if_pos rfl]; exact hxl
    rw [acc_prev (f := { f with hier := h3 }) h1 h2']
    show Except.ok ((h3.get x).next.bind _) = _
    rw [hget, if_neg hxa, if_pos rfl]; rfl
  · rintro A' p rfl
    have hpm : p ∈ A' ++ [p] ++ a :: B := by simp
    have hpx' : p ≠ x := fun e => hnm.1 (by simp [e])
    have hpa : p ≠ a := by
      intro e; subst e
      simp [List.nodup_append] at hnd
    have hgp := hc.kid hv hk hpm
    have hpl : h3.live p := by
      unfold Hier.live; rw [hget, if_neg hpa, if_neg hpx']; exact hc.liveKid hv hk hpm
    refine ⟨?_, hpx'⟩
    rw [acc_next (f := { f with hier := h3 }) hpl]
    show Except.ok (h3.get p).next = _
    rw [hget, if_neg hpa, if_neg hpx', hgp]
    show Except.ok (nx _ p) = _
    have hpA' : p ∉ A' := by
      intro hm
      have h := (List.nodup_append.1 hnd).1
      rw [List.nodup_append] at h
      exact h.2.2 p hm p (by simp) rfl
    unfold nx
    rw [List.append_assoc, after_append_right _ hpA']; simp
  · rintro rfl
    have hPg : h3.get P' = h2.get P' := by rw [hget, if_neg (Ne.symm haP), if_neg hne]
    have : h3.live P' := by unfold Hier.live; rw [hPg]; exact hPl
    rw [acc_first (f := { f with hier := h3 }) this]
    show Except.ok (h3.get P').first = _
    rw [hPg, hPf]; rfl

/-- In-place `NextSiblingOf`. -/
theorem inplace_after (hm : Models f s) {x a P : Nat} {A B : List Nat} (hk : s.kids P = A ++ a :: x :: B) :
    ∃ f', Forest.insert x (.nextSiblingOf a) f = .ok (.ok ()) f' ∧ f'.data = f.data ∧
      f'.nextSiblingId a = .ok (some x) ∧
      (∀ b B', B = b :: B' → f'.nextSiblingId x = .ok (some b) ∧ f'.prevSiblingId b = .ok (some a) ∧ a ≠ x) ∧
      (B = [] → f'.lastChildId P = .ok (some a)) := by
  have hv := hm.valid
  have hnext : s.next a = some x := next_mid hv hk
  obtain ⟨P', A0, B0, h2, hpp, hk0, hc, hcase, hrun⟩ :=
    inplace_run hm (x := x) (d := .nextSiblingOf a) hnext
  obtain ⟨A', rfl⟩ := hcase
  have hap : s.parent a = some P := hv.kid_parent (by rw [hk]; simp)
  have hPP : P' = P := by
    have : s.parent a = some P' := hpp
    rw [hap] at this; exact (Option.some.inj this).symm
  subst hPP
  have hk1 : s.kids P' = (A ++ [a]) ++ x :: B := by rw [hk]; simp
  have hnm0 := hv.mid_not_mem hk0
  have hnm := hv.mid_not_mem hk1
  have hAB : A ++ [a] = A' ++ [a] ∧ B = B0 := by
    have h1 := congrArg (fun l => Treena.before l x) (hk1.symm.trans hk0)
    have h2 := congrArg (fun l => Treena.after l x) (hk1.symm.trans hk0)
    simp only [before_eq hnm.1, before_eq hnm0.1] at h1
    simp only [after_eq hnm.1, after_eq hnm0.1] at h2
    exact ⟨h1, by simpa using h2⟩
  obtain ⟨hA', rfl⟩ := hAB
  have hA'' : A = A' := List.append_cancel_right hA'
  subst hA''
  have hpx : s.parent x = some P' := hv.kid_parent (by rw [hk]; simp)
  have hne : P' ≠ x := hv.parent_ne hpx
  obtain ⟨hPl, hPf⟩ := hc.par hv hk1
  have hxl := hc.liveSelf hv
  have hax : a ≠ x := by intro e; exact hnm.1 (by simp [e])
  have ham : a ∈ A ++ [a] ++ B := by simp
  have hal := hc.liveKid hv hk1 ham
  have haP : a ≠ P' := (hv.parent_ne hap).symm
  have hcon := connect_pab (p := P') hax hal hxl
  dsimp only at hrun
  rw [tc_skipNext (by simpa using hax), hcon] at hrun
  refine ⟨_, hrun, rfl, ?_⟩
  set h3 := (h2.put a { h2.get a with parent := some P', next := some x }).put x
        { h2.get x with parent := some P', prevCyc := some a } with hh3
  have hget : ∀ w, h3.get w = if w = x then { h2.get x with parent := some P', prevCyc := some a } else
      if w = a then { h2.get a with parent := some P', next := some x } else h2.get w := by
    intro w
    rw [hh3, get_put (by simpa using live_lt hxl), get_put (live_lt hal)]
  have hnd : (A ++ [a] ++ B).Nodup := by
    have := (hv.detach x).kids_nodup P'
    rw [Shape.detach_kids_mid hv hk1] at this; exact this
  have hndA : (A ++ [a]).Nodup := (List.nodup_append.1 hnd).1
  have ha3 : h3.live a := by unfold Hier.live; rw [hget, if_neg hax, if_pos rfl]; exact hal
  have hx3 : h3.live x := by unfold Hier.live; rw [hget, if_pos rfl]; rfl
  have hnx : (h3.get a).next = some x := by rw [hget, if_neg hax, if_pos rfl]
  refine ⟨?_, ?_, ?_⟩
  · rw [acc_next (f := { f with hier := h3 }) ha3]; exact congrArg _ hnx
  · rintro b B' rfl
    have hbm : b ∈ A ++ [a] ++ b :: B' := by simp
    have hbx : b ≠ x := fun e => hnm.2 (by simp [e])
    have hbA : b ∉ A ++ [a] := by
      intro hm
      rw [List.nodup_append] at hnd
      exact hnd.2.2 b hm b (by simp) rfl
    have hba : b ≠ a := fun e => hbA (by simp [e])
    refine ⟨?_, ?_, hax⟩
    · rw [acc_next (f := { f with hier := h3 }) hx3]
      show Except.ok (h3.get x).next = _
      rw [hget, if_pos rfl, hc.self, link_child hpx]
      show Except.ok (nx _ x) = _
      rw [hk1]; unfold nx; rw [after_eq hnm.1]; rfl
    · have h1 : (h3.get b).prevCyc = some a := by
        rw [hget, if_neg hbx, if_neg hba, hc.kid hv hk1 hbm]
        show pc _ b = _
        rw [pc_right _ hbA (by simp)]; simp
      rw [acc_prev (f := { f with hier := h3 }) h1 ha3]
      show Except.ok ((h3.get a).next.bind _) = _
      rw [hnx]; rfl
  · rintro rfl
    have hPg : h3.get P' = h2.get P' := by rw [hget, if_neg hne, if_neg (Ne.symm haP)]
    have hP3 : h3.live P' := by unfold Hier.live; rw [hPg]; exact hPl
    obtain ⟨c, hc0⟩ : ∃ c, (A ++ [a]).head? = some c := by
      cases A with
      | nil => exact ⟨a, rfl⟩
      | cons a l => exact ⟨a, rfl⟩
    have hcm : c ∈ A ++ [a] := List.mem_of_head? hc0
    have hcx : c ≠ x := fun e => hnm.1 (e ▸ hcm)
    have hgc := hc.kid hv hk1 (y := c) (by simpa using hcm)
    refine acc_last (f := { f with hier := h3 }) (c := c) hP3 ?_ ?_
    · show (h3.get P').first = _
      rw [hPg, hPf]; simpa using hc0
    · have hpc : (h2.get c).prevCyc = some a := by
        rw [hgc]; show pc _ c = _
        rw [List.append_nil, pc_self hcm, if_pos hc0]; simp
      show (h3.get c).prevCyc = _
      rw [hget, if_neg hcx]
      by_cases e : c = a
      · rw [if_pos e]; show (h2.get a).prevCyc = _; rw [e] at hpc; exact hpc
      · rw [if_neg e]; exact hpc

/-! ### No ordered forest is described after an in-place request -/

theorem Undescribable.not_consistent (h : Undescribable f) : ¬ Consistent f :=
  fun ⟨s, hm⟩ => h s hm.valid hm.describes

theorem Shape.Valid.prev_of_next (hv : s.Valid) {x y : Nat} (h : s.next x = some y) : s.prev y = some x := by
  obtain ⟨P, A, B, _, hk, A', rfl⟩ := hv.at_split (x := y) (pl := .after x) h
  exact prev_mid hv (pre := A') (post := B) (by rw [hk]; simp)

theorem Shape.Valid.next_of_prev (hv : s.Valid) {x y : Nat} (h : s.prev y = some x) : s.next x = some y := by
  obtain ⟨P, A, B, _, hk, B', rfl⟩ := hv.at_split (x := x) (pl := .before y) h
  exact next_mid hv (pre := A) (post := B') hk

theorem Describes.alive_of {f' : Forest T} {s' : Shape} (hm : Models f s) (hd : f'.data = f.data)
    (h : Describes f' s') {x : Nat} (hx : s.alive x = true) : s'.alive x = true := by
  rw [← h.alive x, ← hx, ← hm.isAlive x]
  unfold Forest.isAlive; rw [hd]

/-- Every in-place request, except `FirstChildOf` of an only child, destroys the forest. -/
theorem inplace_undescribable (hm : Models f s) {x : Nat} {d : InsertAs} (hat : s.At x d.place)
    (hno : ¬ ∃ P, d = .firstChildOf P ∧ s.kids P = [x]) :
    Undescribable (Forest.insert x d f).state := by
  have hv := hm.valid
  obtain ⟨P, A, B, hpp, hk, hcase⟩ := hv.at_split hat
  have hpx : s.parent x = some P := hv.kid_parent (by rw [hk]; simp)
  obtain ⟨hxa, hPa⟩ := hv.parent_alive x P hpx
  have hka : ∀ y, y ∈ A ++ x :: B → s.alive y = true := fun y hy => hv.kid_alive (p := P) (by rw [hk]; exact hy)
  cases d with
  | firstChildOf a =>
    obtain ⟨rfl, rfl⟩ := hcase
    cases B with
    | nil => exact absurd ⟨a, rfl, hk⟩ hno
    | cons y B' =>
      obtain ⟨f', hrun, hdata, _, hbad⟩ := inplace_first hm hk
      rw [hrun]
      intro s' hv' (hd : Describes f' s')
      have hx' := hd.alive_of hm hdata hxa
      have hy' := hd.alive_of hm hdata (hka y (by simp))
      obtain ⟨h1, h2⟩ := hbad y B' rfl
      rw [hd.next x hx'] at h1
      rw [hd.prev y hy', hv'.prev_of_next (Except.ok.inj h1)] at h2
      cases h2
  | lastChildOf a =>
    obtain ⟨rfl, rfl⟩ := hcase
    rcases snoc_cases A with e | ⟨A', p, e⟩
    · subst e
      obtain ⟨f', hrun, hdata, h1, h2⟩ := inplace_last_only hm hk
      rw [hrun]
      intro s' hv' (hd : Describes f' s')
      rw [hd.first a (hd.alive_of hm hdata hPa)] at h1
      rw [hd.parent x (hd.alive_of hm hdata hxa)] at h2
      have := (hv'.mem_kids x a).2 (Except.ok.inj h2)
      have h1' := Except.ok.inj h1
      rw [List.head?_eq_none_iff] at h1'
      rw [h1'] at this; simp at this
    · subst e
      obtain ⟨f', hrun, hdata, h1, h2, h3, hne⟩ := inplace_last hm (A := A') (p := p) (x := x) (P := a)
        (by rw [hk]; simp)
      rw [hrun]
      intro s' hv' (hd : Describes f' s')
      have hp' := hd.alive_of hm hdata (hka p (by simp))
      rw [hd.last a (hd.alive_of hm hdata hPa)] at h1
      rw [hd.parent p hp'] at h2
      rw [hd.next p hp'] at h3
      have hpar := Except.ok.inj h2
      have hmem := (hv'.mem_kids p a).2 hpar
      have h3' := Except.ok.inj h3
      unfold Shape.next at h3'
      rw [sibs_child hpar, List.head?_eq_none_iff, after_eq_nil_iff (hv'.kids_nodup a) hmem] at h3'
      rw [h3'] at h1
      exact hne (Option.some.inj (Except.ok.inj h1))
  | previousSiblingOf a =>
    obtain ⟨B', rfl⟩ := hcase
    obtain ⟨f', hrun, hdata, h1, h2, h3⟩ := inplace_before hm hk
    rw [hrun]
    intro s' hv' (hd : Describes f' s')
    rw [hd.prev a (hd.alive_of hm hdata (hka a (by simp)))] at h1
    rcases snoc_cases A with e | ⟨A', p, e⟩
    · have h3 := h3 e
      rw [hd.first P (hd.alive_of hm hdata hPa)] at h3
      have h3 := Except.ok.inj h3
      have hap := hv'.kid_parent (List.mem_of_head? h3)
      have h1 := Except.ok.inj h1
      unfold Shape.prev at h1
      rw [sibs_child hap, (before_eq_nil_iff (List.mem_of_head? h3)).2 h3] at h1
      cases h1
    · obtain ⟨h2, hne⟩ := h2 A' p e
      rw [hd.next p (hd.alive_of hm hdata (hka p (by simp [e])))] at h2
      rw [hv'.prev_of_next (Except.ok.inj h2)] at h1
      exact hne (Option.some.inj (Except.ok.inj h1))
  | nextSiblingOf a =>
    obtain ⟨A', rfl⟩ := hcase
    obtain ⟨f', hrun, hdata, h1, h2, h3⟩ := inplace_after hm (A := A') (a := a) (x := x) (B := B) (P := P)
      (by rw [hk]; simp)
    rw [hrun]
    intro s' hv' (hd : Describes f' s')
    have ha' := hd.alive_of hm hdata (hka a (by simp))
    rw [hd.next a ha'] at h1
    cases B with
    | nil =>
      have h3 := h3 rfl
      rw [hd.last P (hd.alive_of hm hdata hPa)] at h3
      have h3 := Except.ok.inj h3
      have hm' := List.mem_of_getLast? h3
      have hap := hv'.kid_parent hm'
      have h1 := Except.ok.inj h1
      unfold Shape.next at h1
      rw [sibs_child hap, (after_eq_nil_iff (hv'.kids_nodup P) hm').2 h3] at h1
      cases h1
    | cons b B' =>
      obtain ⟨h2, h4, hne⟩ := h2 b B' rfl
      rw [hd.next x (hd.alive_of hm hdata hxa)] at h2
      rw [hd.prev b (hd.alive_of hm hdata (hka b (by simp))), hv'.prev_of_next (Except.ok.inj h2)] at h4
      exact hne (Option.some.inj (Except.ok.inj h4)).symm

end Treena
