import Verif.Proof.InPlace
import Verif.Spec.Damage
/-!
# Exactly what an in-place `insert` writes
-/
namespace Treena
open Shape Hier
variable {T : Type} {f : Forest T} {s : Shape} {x P : Nat} {A B : List Nat} {h2 : Hier}

/-- The record of the node. -/
theorem mid_get (hm : Models f s) (hk : s.kids P = A ++ x :: B) :
    f.hier.get x = ⟨some P, A.getLast?.or (x :: B).getLast?, B.head?, (s.kids x).head?⟩ := by
  have hv := hm.valid
  have hpx : s.parent x = some P := hv.kid_parent (by rw [hk]; simp)
  have hnm := hv.mid_not_mem hk
  rw [hm.agrees.2 x, entry_alive (hv.parent_alive x P hpx).1, link_child hpx, hk]
  congr 1
  · rw [pc_right _ hnm.1 (by simp)]; simp
  · unfold nx; rw [after_eq hnm.1]

/-- What cutting the node out has changed in the other records. -/
theorem Cut.diff (hc : Cut s x P A B h2) (hm : Models f s) (hk : s.kids P = A ++ x :: B) {y : Nat} (hy : y ≠ x) :
    h2.get y = ⟨(f.hier.get y).parent,
      if B.head? = some y then A.getLast?.or B.getLast? else if B = [] ∧ A.head? = some y then A.getLast? else (f.hier.get y).prevCyc,
      if A.getLast? = some y then B.head? else (f.hier.get y).next,
      if y = P then (A ++ B).head? else (f.hier.get y).first⟩ := by
  have hv := hm.valid
  have hpx : s.parent x = some P := hv.kid_parent (by rw [hk]; simp)
  have hal := hv.parent_alive x P hpx
  have hnd := hv.kids_nodup P
  rw [hk] at hnd
  have hA : A.Nodup := (List.nodup_append.1 hnd).1
  have hB : B.Nodup := (List.nodup_cons.1 (List.nodup_append.1 hnd).2.1).2
  have hAB : ∀ y ∈ A, y ∉ B := fun y h1 h2 => (List.nodup_append.1 hnd).2.2 y h1 y (by simp [h2]) rfl
  have hPA : P ∉ A := fun h => hv.self_not_kid (x := P) (by rw [hk]; simp [h])
  have hPB : P ∉ B := fun h => hv.self_not_kid (x := P) (by rw [hk]; simp [h])
  have hnotA : y ∉ A → A.getLast? ≠ some y ∧ A.head? ≠ some y := fun h =>
    ⟨fun e => h (List.mem_of_getLast? e), fun e => h (List.mem_of_head? e)⟩
  have hnotB : y ∉ B → B.head? ≠ some y := fun h e => h (List.mem_of_head? e)
  rw [hc.rest y hy, hm.agrees.2 y]
  cases ha : s.alive y with
  | false =>
    have h1 : y ∉ A := fun h => by rw [hv.kid_alive (p := P) (by rw [hk]; simp [h])] at ha; cases ha
    have h2 : y ∉ B := fun h => by rw [hv.kid_alive (p := P) (by rw [hk]; simp [h])] at ha; cases ha
    have h3 : y ≠ P := fun e => by rw [e, hal.2] at ha; cases ha
    rw [entry_dead ha, entry_dead (s := s.detach x) ha]
    simp [hnotA h1, hnotB h2, h3, Neighbors.removed]
  | true =>
    rw [entry_alive ha, entry_alive (s := s.detach x) ha]
    by_cases hyP : y = P
    · subst hyP
      rw [hv.detach_link_parent hpx, hk, erase_mid (hv.mid_not_mem hk).1]
      simp [hnotA hPA, hnotB hPB]
    · by_cases hs : s.parent y = some P
      · rw [hv.detach_link_sib hpx hy hs, link_child hs, hk, erase_mid (hv.mid_not_mem hk).1]
        have hmem : y ∈ A ∨ y ∈ B := by
          have := (hv.mem_kids y P).2 hs
          rw [hk] at this; simp [hy] at this; exact this
        rcases hmem with h | h
        · have hb := hnotB (hAB y h)
          rw [pc_left _ h, pc_left _ h, nx_left _ hA h, nx_left _ hA h, if_neg hb, if_neg hyP]
          congr 1
          · by_cases e : A.head? = some y
            · simp only [e, if_true, and_true]
              cases B with
              | nil => simp
              | cons b l => simp
            · simp [e]
          · split <;> rfl
        · have hA' : y ∉ A := fun h' => hAB y h' h
          obtain ⟨e1, e2⟩ := hnotA hA'
          have e3 : x :: B = [x] ++ B := rfl
          have hyx1 : y ∉ [x] := by simpa using hy
          rw [pc_right _ hA' h, pc_right _ hA' (by simp [h]), nx_right _ hA', nx_right _ hA', if_neg e1, if_neg hyP]
          congr 1
          · by_cases e : B.head? = some y
            · rw [if_pos e, if_pos e]
            · rw [if_neg e, if_neg e, if_neg (fun h => e2 h.2)]
              show _ = if (x :: B).head? = some y then _ else pv (x :: B) y
              rw [if_neg (by simpa using Ne.symm hy), e3, pv_right _ hyx1 h, if_neg e]
          · rw [e3, nx_right _ hyx1]
      · have h1 : y ∉ A := fun h => hs (hv.kid_parent (by rw [hk]; simp [h]))
        have h2 : y ∉ B := fun h => hs (hv.kid_parent (by rw [hk]; simp [h]))
        rw [hv.detach_link_other hpx hy hyP hs]
        simp [hnotA h1, hnotB h2, hyP]


theorem mid_unique {A' B' : List Nat} (h : A ++ x :: B = A' ++ x :: B') (h1 : x ∉ A) (h2 : x ∉ A') : A = A' ∧ B = B' := by
  have e1 := congrArg (fun l => Treena.before l x) h
  have e2 := congrArg (fun l => Treena.after l x) h
  simp only [before_eq h1, before_eq h2] at e1
  simp only [after_eq h1, after_eq h2] at e2
  exact ⟨e1, e2⟩

theorem inplace_at (hm : Models f s) (hk : s.kids P = A ++ x :: B) {d : InsertAs} (hat : s.At x d.place) :
    ∃ h2, Cut s x P A B h2 ∧ Forest.insert x d f =
      match (match d with
        | .firstChildOf _ => transplantConnect x x P none (some x) h2
        | .lastChildOf _ => transplantConnect x x P (some x) none h2
        | .previousSiblingOf a => transplantConnect x x P (some x) (some a) h2
        | .nextSiblingOf a => transplantConnect x x P (some a) (some x) h2) with
      | .ok _ h3 => .ok (.ok ()) { f with hier := h3 }
      | .fail e h3 => .fail e { f with hier := h3 } := by
  have hv := hm.valid
  obtain ⟨P', A', B', h2, _, hk', hc, _, hrun⟩ := inplace_run hm hat
  have e1 : s.parent x = some P := hv.kid_parent (by rw [hk]; simp)
  have e2 : s.parent x = some P' := hv.kid_parent (by rw [hk']; simp)
  rw [e1] at e2
  cases e2
  obtain ⟨rfl, rfl⟩ := mid_unique (hk.symm.trans hk') (hv.mid_not_mem hk).1 (hv.mid_not_mem hk').1
  exact ⟨h2, hc, hrun⟩

/-- Facts used in all the cases. -/
structure Mid (s : Shape) (f : Forest T) (x P : Nat) (A B : List Nat) : Prop where
  live : ∀ y ∈ A ++ x :: B, f.hier.live y
  liveP : f.hier.live P
  ne : ∀ y ∈ A ++ x :: B, y ≠ P
  nodup : (A ++ x :: B).Nodup
  first : (f.hier.get P).first = (A ++ x :: B).head?
  len : f.hier.nbrs.length = s.size

theorem Models.mid (hm : Models f s) (hk : s.kids P = A ++ x :: B) : Mid s f x P A B := by
  have hv := hm.valid
  have hpx : s.parent x = some P := hv.kid_parent (by rw [hk]; simp)
  have hPa := (hv.parent_alive x P hpx).2
  refine ⟨fun y hy => (hm.agrees.live_iff hv y).2 (hv.kid_alive (p := P) (by rw [hk]; exact hy)), (hm.agrees.live_iff hv P).2 hPa,
    fun y hy e => hv.self_not_kid (x := P) (by rw [hk, ← e]; exact hy), by rw [← hk]; exact hv.kids_nodup P, ?_, hm.agrees.1⟩
  rw [hm.agrees.2 P, entry_alive hPa, ← hk]; rfl

/-- The record of a child. -/
theorem kid_get (hm : Models f s) {y : Nat} (hy : y ∈ s.kids P) :
    f.hier.get y = ⟨some P, pc (s.kids P) y, nx (s.kids P) y, (s.kids y).head?⟩ := by
  have hv := hm.valid
  have hp := hv.kid_parent hy
  rw [hm.agrees.2 y, entry_alive (hv.parent_alive y P hp).1, link_child hp]

theorem neighbors_eta (g : Neighbors) : (⟨g.parent, g.prevCyc, g.next, g.first⟩ : Neighbors) = g := rfl

/-- `FirstChildOf`, the next sibling `y`. -/
theorem slip_first (hm : Models f s) {y : Nat} (hk : s.kids P = x :: y :: B) :
    Forest.insert x (.firstChildOf P) f =
      .ok (.ok ()) { f with hier := f.hier.put y { f.hier.get y with prevCyc := (y :: B).getLast? } } := by
  have hv := hm.valid
  have hk' : s.kids P = [] ++ x :: (y :: B) := hk
  obtain ⟨h2, hc, hrun⟩ := inplace_at hm hk' (d := .firstChildOf P) (by simp [InsertAs.place, Shape.At, Shape.first, hk])
  obtain ⟨hPl, hPf⟩ := hc.par hv hk'
  have hmid := hm.mid hk'
  have hxl := hc.liveSelf hv
  have hxP : x ≠ P := hmid.ne x (by simp)
  have hyP : y ≠ P := hmid.ne y (by simp)
  have hxy : y ≠ x := fun e => by have := hmid.nodup; simp [e] at this
  have hyl : f.hier.live y := hmid.live y (by simp)
  obtain ⟨z, hz, hzm⟩ := getLast?_of_mem (l := y :: B) (x := y) (by simp)
  have hlast : (h2.get P).lastChild h2 = .ok (some z) := by
    refine lastChild_some hPl (c := y) (by rw [hPf]; rfl) ?_
    rw [hc.diff hm hk' hxy]; simpa using hz
  dsimp only at hrun
  rw [tc_skipNext (by simp), connect_pb (Ne.symm hxP) hPl hxl hlast] at hrun
  rw [hrun]
  dsimp only
  congr 2
  refine ext_get (by simp [Hier.put, hc.len, hm.agrees.1]) fun w => ?_
  rw [get_put (by simpa using live_lt hPl), get_put (live_lt hxl), get_put (live_lt hyl)]
  by_cases hwP : w = P
  · subst hwP
    rw [if_pos rfl, if_neg (Ne.symm hyP), hc.diff hm hk' (Ne.symm hxP)]
    have := hmid.first
    simp at this
    simp [hyP, ← this]
  · rw [if_neg hwP]
    by_cases hwx : w = x
    · subst hwx
      rw [if_pos rfl, if_neg (Ne.symm hxy), hc.self, mid_get hm hk', link_child (hv.kid_parent (by rw [hk]; simp)), hk]
      simp [nx, hz]
    · rw [if_neg hwx, hc.diff hm hk' hwx]
      by_cases hwy : w = y
      · subst hwy; simp [hwP]
      · simp [hwy, hwP, Ne.symm hwy]


/-- `LastChildOf`, the previous sibling `p`. -/
theorem slip_last (hm : Models f s) {p : Nat} (hk : s.kids P = A ++ [p, x]) :
    Forest.insert x (.lastChildOf P) f = .ok (.ok ()) { f with hier := f.hier.put p { f.hier.get p with next := none } } := by
  have hv := hm.valid
  have hk' : s.kids P = (A ++ [p]) ++ x :: [] := by rw [hk]; simp
  obtain ⟨h2, hc, hrun⟩ := inplace_at hm hk' (d := .lastChildOf P) (by simp [InsertAs.place, Shape.At, Shape.last, hk])
  obtain ⟨hPl, hPf⟩ := hc.par hv hk'
  have hmid := hm.mid hk'
  have hxl := hc.liveSelf hv
  have hxP : x ≠ P := hmid.ne x (by simp)
  have hpP : p ≠ P := hmid.ne p (by simp)
  have hnm := hv.mid_not_mem hk'
  have hpx : p ≠ x := fun e => hnm.1 (by simp [e])
  have hpl : f.hier.live p := hmid.live p (by simp)
  obtain ⟨c, hc0⟩ : ∃ c, (A ++ [p]).head? = some c := by cases A <;> exact ⟨_, rfl⟩
  have hcm : c ∈ A ++ [p] := List.mem_of_head? hc0
  have hcx : c ≠ x := fun e => hnm.1 (e ▸ hcm)
  have hcP : c ≠ P := hmid.ne c (List.mem_append_left _ hcm)
  have hcl := hc.liveKid hv hk' (y := c) (by simpa using hcm)
  have hPfc : (h2.get P).first = some c := by rw [hPf]; simpa using hc0
  dsimp only at hrun
  rw [tc_skipPrev (by simp), connect_pa (Ne.symm hxP) hxl hPl hcl hPfc] at hrun
  rw [hrun]
  dsimp only
  congr 2
  have hgx := mid_get hm hk'
  refine ext_get (by simp [Hier.put, hc.len, hm.agrees.1]) fun w => ?_
  rw [get_put (by simpa using live_lt hcl), get_put (live_lt hxl), get_put (live_lt hxl), get_put (live_lt hpl), if_neg hcx]
  by_cases hwx : w = x
  · subst hwx
    rw [if_neg (Ne.symm hcx), if_pos rfl, if_neg (Ne.symm hpx), hc.self, ← entry_alive (hv.kid_alive (p := P) (by rw [hk]; simp)),
      ← hm.agrees.2, hgx]
    rfl
  · rw [if_neg hwx]
    have key : w ≠ c → h2.get w = if w = p then { f.hier.get p with next := none } else f.hier.get w := fun hwc => by
      rw [hc.diff hm hk' hwx]
      have h3 : (if w = P then (A ++ [p] ++ []).head? else (f.hier.get w).first) = (f.hier.get w).first := by
        split
        · rename_i e; rw [e, hmid.first]; simp
        · rfl
      rw [h3]
      have h4 : (A ++ [p]).head? ≠ some w := by rw [hc0]; simpa using Ne.symm hwc
      by_cases hwp : w = p
      · subst hwp; simp at h4; simp [h4]
      · simp at h4; simp [h4, hwp, Ne.symm hwp]
    by_cases hwc : w = c
    · subst hwc
      rw [if_pos rfl, hc.diff hm hk' hwx]
      have hcg := kid_get hm (P := P) (y := w) (by rw [hk']; exact List.mem_append_left _ hcm)
      have hcg' : (f.hier.get w).prevCyc = some x := by
        rw [hcg, hk', pc_left _ hcm, if_pos hc0]; simp
      by_cases hwp : w = p
      · subst hwp; simp [hcP, ← hcg']
      · simp [hwp, Ne.symm hwp, hcP, ← hcg']
    · rw [if_neg hwc, key hwc]

/-- `LastChildOf`, an only child. -/
theorem slip_only (hm : Models f s) (hk : s.kids P = [x]) :
    Forest.insert x (.lastChildOf P) f =
      .fail (.panic "[consistency] `parent` must have a child including `prev_child`")
        { f with hier := f.hier.put P { f.hier.get P with first := none } } := by
  have hv := hm.valid
  have hk' : s.kids P = [] ++ x :: [] := hk
  obtain ⟨h2, hc, hrun⟩ := inplace_at hm hk' (d := .lastChildOf P) (by simp [InsertAs.place, Shape.At, Shape.last, hk])
  obtain ⟨hPl, hPf⟩ := hc.par hv hk'
  have hmid := hm.mid hk'
  have hxl := hc.liveSelf hv
  have hxP : x ≠ P := hmid.ne x (by simp)
  set h3 := h2.put x { h2.get x with parent := some P, next := none } with hh3
  have hg3 : h3.get P = h2.get P := by rw [hh3, get_put (live_lt hxl), if_neg (Ne.symm hxP)]
  have hP3 : h3.live P := by unfold Hier.live; rw [hg3]; exact hPl
  have hcon : connectTriangle (some P) (some x) none h2 =
      .fail (.panic "[consistency] `parent` must have a child including `prev_child`") h3 := by
    have hfc := firstChild_live hP3
    rw [hg3, hPf] at hfc
    simp [connectTriangle, connectPrev, connectNext, connectParent, updNbr_live hxl, ← hh3, M.read,
      nbrOf_live hP3, hg3, hfc]
  dsimp only at hrun
  rw [tc_skipPrev (by simp), hcon] at hrun
  rw [hrun]
  dsimp only
  congr 2
  have hgx := mid_get hm hk'
  refine ext_get (by simp [hh3, Hier.put, hc.len, hm.agrees.1]) fun w => ?_
  rw [hh3, get_put (live_lt hxl), get_put (live_lt hmid.liveP)]
  by_cases hwx : w = x
  · subst hwx
    rw [if_pos rfl, if_neg hxP, hc.self, ← entry_alive (hv.kid_alive (p := P) (by rw [hk]; simp)), ← hm.agrees.2, hgx]
    rfl
  · rw [if_neg hwx, hc.diff hm hk' hwx]
    by_cases hwP : w = P
    · subst hwP; simp
    · simp [hwP]

/-- `PreviousSiblingOf(y)`, the previous sibling `p`. -/
theorem slip_before (hm : Models f s) {p y : Nat} (hk : s.kids P = A ++ p :: x :: y :: B) :
    Forest.insert x (.previousSiblingOf y) f =
      .ok (.ok ()) { f with hier := f.hier.put p { f.hier.get p with next := some y } } := by
  have hv := hm.valid
  have hk' : s.kids P = (A ++ [p]) ++ x :: (y :: B) := by rw [hk]; simp
  obtain ⟨h2, hc, hrun⟩ := inplace_at hm hk' (d := .previousSiblingOf y) (prev_mid hv (pre := A ++ [p]) (post := B) hk')
  have hmid := hm.mid hk'
  have hxl := hc.liveSelf hv
  have hnm := hv.mid_not_mem hk'
  have hpP : p ≠ P := hmid.ne p (by simp)
  have hyP : y ≠ P := hmid.ne y (by simp)
  have hpx : p ≠ x := fun e => hnm.1 (by simp [e])
  have hyx : y ≠ x := fun e => hnm.2 (by simp [e])
  have hpy : p ≠ y := fun e => by have := hmid.nodup; simp [e, List.nodup_append] at this
  have hpl : f.hier.live p := hmid.live p (by simp)
  have hyl := hc.liveKid hv hk' (y := y) (by simp)
  dsimp only at hrun
  rw [tc_skipPrev (by simpa using hyx), connect_pab (Ne.symm hyx) hxl hyl] at hrun
  rw [hrun]
  dsimp only
  congr 2
  have hgx := mid_get hm hk'
  have hgy := kid_get hm (P := P) (y := y) (by rw [hk]; simp)
  have hyA : y ∉ A ++ [p] := by
    have := hmid.nodup
    rw [List.nodup_append] at this
    exact fun h => this.2.2 y h y (by simp) rfl
  have hgy' : (f.hier.get y).prevCyc = some x := by
    have e : x :: y :: B = [x] ++ (y :: B) := rfl
    rw [hgy, hk', pc_right _ hyA (by simp)]
    show (if (x :: y :: B).head? = some y then _ else pv (x :: y :: B) y) = _
    rw [if_neg (by simpa using Ne.symm hyx), e, pv_right _ (by simpa using hyx) (by simp)]; simp
  refine ext_get (by simp [Hier.put, hc.len, hm.agrees.1]) fun w => ?_
  rw [get_put (by simpa using live_lt hyl), get_put (live_lt hxl), get_put (live_lt hpl)]
  by_cases hwy : w = y
  · subst hwy
    rw [if_pos rfl, if_neg (Ne.symm hpy), hc.diff hm hk' hyx]
    simp [hyP, hpy, ← hgy', hgy]
  · rw [if_neg hwy]
    by_cases hwx : w = x
    · subst hwx
      rw [if_pos rfl, if_neg (Ne.symm hpx), hc.self, ← entry_alive (hv.kid_alive (p := P) (by rw [hk]; simp)), ← hm.agrees.2, hgx]
      rfl
    · rw [if_neg hwx, hc.diff hm hk' hwx]
      have h3 : (if w = P then (A ++ [p] ++ y :: B).head? else (f.hier.get w).first) = (f.hier.get w).first := by
        split
        · rename_i e; rw [e, hmid.first]; cases A <;> simp
        · rfl
      rw [h3]
      by_cases hwp : w = p
      · subst hwp; simp [Ne.symm hwy]
      · simp [hwp, Ne.symm hwp, Ne.symm hwy]

/-- `PreviousSiblingOf(y)`, the first child. -/
theorem slip_before_first (hm : Models f s) {y : Nat} (hk : s.kids P = x :: y :: B) :
    Forest.insert x (.previousSiblingOf y) f =
      .ok (.ok ()) { f with hier := f.hier.put P { f.hier.get P with first := some y } } := by
  have hv := hm.valid
  have hk' : s.kids P = [] ++ x :: (y :: B) := hk
  obtain ⟨h2, hc, hrun⟩ := inplace_at hm hk' (d := .previousSiblingOf y) (prev_mid hv (pre := []) (post := B) hk')
  have hmid := hm.mid hk'
  have hxl := hc.liveSelf hv
  have hnm := hv.mid_not_mem hk'
  have hyP : y ≠ P := hmid.ne y (by simp)
  have hxP : x ≠ P := hmid.ne x (by simp)
  have hyx : y ≠ x := fun e => hnm.2 (by simp [e])
  have hyl := hc.liveKid hv hk' (y := y) (by simp)
  dsimp only at hrun
  rw [tc_skipPrev (by simpa using hyx), connect_pab (Ne.symm hyx) hxl hyl] at hrun
  rw [hrun]
  dsimp only
  congr 2
  have hgx := mid_get hm hk'
  have hgy := kid_get hm (P := P) (y := y) (by rw [hk]; simp)
  have hgy' : (f.hier.get y).prevCyc = some x := by
    have e : x :: y :: B = [x] ++ (y :: B) := rfl
    rw [hgy, hk, e, pc_right _ (by simpa using hyx) (by simp)]; simp
  refine ext_get (by simp [Hier.put, hc.len, hm.agrees.1]) fun w => ?_
  rw [get_put (by simpa using live_lt hyl), get_put (live_lt hxl), get_put (live_lt hmid.liveP)]
  by_cases hwy : w = y
  · subst hwy
    rw [if_pos rfl, if_neg hyP, hc.diff hm hk' hyx]
    simp [hyP, ← hgy', hgy]
  · rw [if_neg hwy]
    by_cases hwx : w = x
    · subst hwx
      rw [if_pos rfl, if_neg hxP, hc.self, ← entry_alive (hv.kid_alive (p := P) (by rw [hk]; simp)), ← hm.agrees.2, hgx]
      rfl
    · rw [if_neg hwx, hc.diff hm hk' hwx]
      by_cases hwP : w = P
      · subst hwP; simp [hyP]
      · simp [hwP, Ne.symm hwy]

/-- `NextSiblingOf(p)`, the next sibling `y`. -/
theorem slip_after (hm : Models f s) {p y : Nat} (hk : s.kids P = A ++ p :: x :: y :: B) :
    Forest.insert x (.nextSiblingOf p) f =
      .ok (.ok ()) { f with hier := f.hier.put y { f.hier.get y with prevCyc := some p } } := by
  have hv := hm.valid
  have hk' : s.kids P = (A ++ [p]) ++ x :: (y :: B) := by rw [hk]; simp
  obtain ⟨h2, hc, hrun⟩ := inplace_at hm hk' (d := .nextSiblingOf p) (next_mid hv (pre := A) (post := y :: B) hk)
  have hmid := hm.mid hk'
  have hxl := hc.liveSelf hv
  have hnm := hv.mid_not_mem hk'
  have hpP : p ≠ P := hmid.ne p (by simp)
  have hyP : y ≠ P := hmid.ne y (by simp)
  have hpx : p ≠ x := fun e => hnm.1 (by simp [e])
  have hyx : y ≠ x := fun e => hnm.2 (by simp [e])
  have hpy : p ≠ y := fun e => by have := hmid.nodup; simp [e, List.nodup_append] at this
  have hyl : f.hier.live y := hmid.live y (by simp)
  have hpl := hc.liveKid hv hk' (y := p) (by simp)
  dsimp only at hrun
  rw [tc_skipNext (by simpa using hpx), connect_pab hpx hpl hxl] at hrun
  rw [hrun]
  dsimp only
  congr 2
  have hgx := mid_get hm hk'
  have hgp := mid_get hm hk
  refine ext_get (by simp [Hier.put, hc.len, hm.agrees.1]) fun w => ?_
  rw [get_put (by simpa using live_lt hxl), get_put (live_lt hpl), get_put (live_lt hyl)]
  by_cases hwx : w = x
  · subst hwx
    rw [if_pos rfl, if_neg (Ne.symm hyx), hc.self, ← entry_alive (hv.kid_alive (p := P) (by rw [hk]; simp)), ← hm.agrees.2, hgx]
    simp
  · rw [if_neg hwx]
    by_cases hwp : w = p
    · subst hwp
      rw [if_pos rfl, if_neg hpy, hc.diff hm hk' hpx]
      simp [hpP, Ne.symm hpy, hgp]
    · rw [if_neg hwp, hc.diff hm hk' hwx]
      have h3 : (if w = P then (A ++ [p] ++ y :: B).head? else (f.hier.get w).first) = (f.hier.get w).first := by
        split
        · rename_i e; rw [e, hmid.first]; cases A <;> simp
        · rfl
      rw [h3]
      by_cases hwy : w = y
      · subst hwy; simp [Ne.symm hwp]
      · simp [hwy, Ne.symm hwp, Ne.symm hwy]

/-- `NextSiblingOf(p)`, the last child; `c` is the first child. -/
theorem slip_after_last (hm : Models f s) {p c : Nat} (hk : s.kids P = A ++ [p, x]) (hc0 : (A ++ [p]).head? = some c) :
    Forest.insert x (.nextSiblingOf p) f =
      .ok (.ok ()) { f with hier := f.hier.put c { f.hier.get c with prevCyc := some p } } := by
  have hv := hm.valid
  have hk' : s.kids P = (A ++ [p]) ++ x :: [] := by rw [hk]; simp
  obtain ⟨h2, hc, hrun⟩ := inplace_at hm hk' (d := .nextSiblingOf p) (next_mid hv (pre := A) (post := []) hk)
  have hmid := hm.mid hk'
  have hxl := hc.liveSelf hv
  have hnm := hv.mid_not_mem hk'
  have hpP : p ≠ P := hmid.ne p (by simp)
  have hpx : p ≠ x := fun e => hnm.1 (by simp [e])
  have hcm : c ∈ A ++ [p] := List.mem_of_head? hc0
  have hcx : c ≠ x := fun e => hnm.1 (e ▸ hcm)
  have hcP : c ≠ P := hmid.ne c (List.mem_append_left _ hcm)
  have hcl : f.hier.live c := hmid.live c (List.mem_append_left _ hcm)
  have hpl := hc.liveKid hv hk' (y := p) (by simp)
  dsimp only at hrun
  rw [tc_skipNext (by simpa using hpx), connect_pab hpx hpl hxl] at hrun
  rw [hrun]
  dsimp only
  congr 2
  have hgx := mid_get hm hk'
  have hgp := mid_get hm (A := A) (x := p) (B := [x]) hk
  have h1 : (A ++ [p]).getLast? = some p := by simp
  refine ext_get (by simp [Hier.put, hc.len, hm.agrees.1]) fun w => ?_
  rw [get_put (by simpa using live_lt hxl), get_put (live_lt hpl), get_put (live_lt hcl)]
  by_cases hwx : w = x
  · subst hwx
    rw [if_pos rfl, if_neg (Ne.symm hcx), hc.self, ← entry_alive (hv.kid_alive (p := P) (by rw [hk]; simp)), ← hm.agrees.2, hgx]
    simp
  · rw [if_neg hwx]
    by_cases hwp : w = p
    · subst hwp
      rw [if_pos rfl, hc.diff hm hk' hpx, hc0, h1]
      by_cases e : w = c
      · subst e; simp [hpP, hgp]
      · simp [hpP, Ne.symm e, e, hgp]
    · rw [if_neg hwp, hc.diff hm hk' hwx, hc0, h1]
      have h3 : (if w = P then (A ++ [p] ++ []).head? else (f.hier.get w).first) = (f.hier.get w).first := by
        split
        · rename_i e; rw [e, hmid.first]; simp
        · rfl
      rw [h3]
      by_cases hwc : w = c
      · subst hwc; simp [Ne.symm hwp]
      · simp [hwc, Ne.symm hwp, Ne.symm hwc]

end Treena
