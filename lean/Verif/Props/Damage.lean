import Verif.Proof.Repair
import Verif.Proof.Laws
import Verif.Props.Consistency
import Verif.Props.Sample
import Verif.Props.SampleRun
/-!
# C84: exactly what an in-place `insert` destroys, and when `detach` repairs it
-/
set_option autoImplicit false

namespace Treena
open Shape Hier
variable {T : Type} {f : Forest T} {s : Shape}

/-- Nobody's first child is a child that is not the first of its siblings. -/
theorem first_ne (hm : Models f s) {P a c z : Nat} (ha : a ∈ s.kids P) (hc : (s.kids P).head? = some c) (hca : c ≠ a) :
    (f.hier.get z).first ≠ some a := by
  intro h
  have hv := hm.valid
  rw [hm.agrees.2 z] at h
  cases hz : s.alive z with
  | false => rw [entry_dead hz] at h; cases h
  | true =>
    rw [entry_alive hz] at h
    have h' : (s.kids z).head? = some a := h
    have e1 := hv.kid_parent (List.mem_of_head? h')
    rw [hv.kid_parent ha] at e1
    cases e1
    rw [hc] at h'; cases h'; exact hca rfl

/-- Whose first child a first child is. -/
theorem first_only (hm : Models f s) {P a z : Nat} (ha : (s.kids P).head? = some a) (h : (f.hier.get z).first = some a) : z = P := by
  have hv := hm.valid
  rw [hm.agrees.2 z] at h
  cases hz : s.alive z with
  | false => rw [entry_dead hz] at h; cases h
  | true =>
    rw [entry_alive hz] at h
    have h' : (s.kids z).head? = some a := h
    have e1 := hv.kid_parent (List.mem_of_head? h')
    rw [hv.kid_parent (List.mem_of_head? ha)] at e1
    exact (Option.some.inj e1).symm

/-- Whose `prev_sibling_cyclic` points to a node with a next sibling. -/
theorem prevCyc_only (hm : Models f s) {p x z : Nat} (hp : f.hier.live p) (hn : (f.hier.get p).next = some x)
    (h : (f.hier.get z).prevCyc = some p) : z = x := by
  have hv := hm.valid
  have hzl : f.hier.live z := live_iff_prevCyc.2 ⟨_, h⟩
  have hza := (hm.agrees.live_iff hv z).1 hzl
  have hpa := (hm.agrees.live_iff hv p).1 hp
  have e1 := acc_prev h hp
  rw [hn, hm.describes.prev z hza] at e1
  have e2 := hv.next_of_prev (Except.ok.inj e1)
  have e3 := acc_next hp
  rw [hn, hm.describes.next p hpa, e2] at e3
  exact Option.some.inj (Except.ok.inj e3)

/-- **C84**.  After a request for the place where the node already is, the data and all parents are as before, and the accessors give
exactly the other answers listed in `Slip` (`Spec/Damage.lean`). -/
theorem C84_damage (hm : Models f s) {x : Nat} {d : InsertAs} {ret : Bool} {first last next prev : List (Nat × Option Nat)}
    (h : Slip s x d ret first last next prev) :
    ∃ f', Damage f f' first last next prev ∧
      (ret = true → Forest.insert x d f = .ok (.ok ()) f') ∧
      (ret = false → ∃ msg, Forest.insert x d f = .fail (.panic msg) f') := by
  have hv := hm.valid
  cases h with
  | @first P y B hk =>
    have hk' : s.kids P = [] ++ x :: (y :: B) := hk
    have hmid := hm.mid hk'
    have hyx : y ≠ x := fun e => by have := hmid.nodup; simp [e] at this
    have hyl : f.hier.live y := hmid.live y (by simp)
    obtain ⟨z, hz, hzm⟩ := getLast?_of_mem (l := y :: B) (x := y) (by simp)
    have hzk : (s.kids P).getLast? = some z := by rw [hk, List.getLast?_cons, hz]; rfl
    have hzl : f.hier.live z := hmid.live z (by simp only [List.nil_append]; exact List.mem_cons_of_mem _ hzm)
    have hn : ({ f.hier.get y with prevCyc := (y :: B).getLast? } : Neighbors).isAlive = true := by
      show (y :: B).getLast?.isSome = true; rw [hz]; rfl
    refine ⟨f.over y { f.hier.get y with prevCyc := (y :: B).getLast? }, ⟨rfl, seen_parent hyl hn rfl, ⟨by simp, fun w _ => ?_⟩,
      ⟨by simp, fun w _ => ?_⟩, ⟨by simp, fun w _ => ?_⟩, ⟨?_, fun w hw => ?_⟩⟩, fun _ => slip_first hm hk, nofun⟩
    · rw [seen_first hyl hn]; split
      · rename_i e; rw [e, acc_first hyl]
      · rfl
    · exact seen_last hyl hn w (fun _ => rfl) fun h => absurd h (first_ne hm (P := P) (c := x) (by rw [hk]; simp) (by rw [hk]; rfl) (Ne.symm hyx))
    · rw [seen_next hyl hn]; split
      · rename_i e; rw [e, acc_next hyl]
      · rfl
    · intro p hp
      simp only [List.mem_singleton] at hp
      subst hp
      show (f.over y _).prevSiblingId y = _
      rw [acc_prev (v := z) (by rw [get_over hyl, if_pos rfl]; exact hz) (live_over hyl hn z hzl), get_over hyl]
      have hzn := last_next hm hzk
      by_cases e : z = y
      · subst e; rw [if_pos rfl]; show Except.ok ((f.hier.get z).next.bind _) = _; rw [hzn]; rfl
      · rw [if_neg e, hzn]; rfl
    · have hwy : w ≠ y := by simpa using hw
      exact seen_prev hyl hn w (fun _ _ => rfl) (fun _ _ _ => rfl) fun e => absurd e hwy
  | @last P p A hk =>
    have hk' : s.kids P = (A ++ [p]) ++ x :: [] := by rw [hk]; simp
    have hmid := hm.mid hk'
    have hgx := mid_get hm hk'
    have hgp := mid_get hm (A := A) (x := p) (B := [x]) hk
    have hpl : f.hier.live p := hmid.live p (by simp)
    have hnm := hm.valid.mid_not_mem hk'
    have hpx : p ≠ x := fun e => hnm.1 (by simp [e])
    have hxc : (f.hier.get x).prevCyc = some p := by rw [hgx]; simp
    have hpn : (f.hier.get p).next = some x := by rw [hgp]; rfl
    have hn : ({ f.hier.get p with next := none } : Neighbors).isAlive = true := hpl
    refine ⟨f.over p { f.hier.get p with next := none }, ⟨rfl, seen_parent hpl hn rfl, ⟨by simp, fun w _ => ?_⟩,
      ⟨by simp, fun w _ => ?_⟩, ⟨?_, fun w hw => ?_⟩, ⟨?_, fun w hw => ?_⟩⟩, fun _ => slip_last hm hk, nofun⟩
    · rw [seen_first hpl hn]; split
      · rename_i e; rw [e, acc_first hpl]
      · rfl
    · exact seen_last hpl hn w (fun _ => rfl) fun _ => rfl
    · intro q hq
      simp only [List.mem_singleton] at hq
      subst hq
      rw [seen_next hpl hn, if_pos rfl]
    · rw [seen_next hpl hn, if_neg (by simpa using hw)]
    · intro q hq
      simp only [List.mem_singleton] at hq
      subst hq
      show (f.over p _).prevSiblingId x = _
      rw [acc_prev (v := p) (by rw [get_over hpl, if_neg (Ne.symm hpx)]; exact hxc) (live_over hpl hn p hpl), get_over hpl, if_pos rfl]; rfl
    · have hwx : w ≠ x := by simpa using hw
      refine seen_prev hpl hn w (fun _ h => absurd (prevCyc_only hm hpl hpn h) hwx) (fun _ e h => ?_) fun _ => rfl
      exact absurd (prevCyc_only hm hpl hpn h) hpx
  | @only P hk =>
    have hk' : s.kids P = [] ++ x :: [] := hk
    have hmid := hm.mid hk'
    have hPl := hmid.liveP
    have hn : ({ f.hier.get P with first := none } : Neighbors).isAlive = true := hPl
    refine ⟨f.over P { f.hier.get P with first := none }, ⟨rfl, seen_parent hPl hn rfl, ⟨?_, fun w hw => ?_⟩,
      ⟨?_, fun w hw => ?_⟩, ⟨by simp, fun w _ => ?_⟩, ⟨by simp, fun w _ => ?_⟩⟩, nofun, fun _ => ⟨_, slip_only hm hk⟩⟩
    · intro q hq
      simp only [List.mem_singleton] at hq
      subst hq
      rw [seen_first hPl hn, if_pos rfl]
    · rw [seen_first hPl hn, if_neg (by simpa using hw)]
    · intro q hq
      simp only [List.mem_singleton] at hq
      subst hq
      have hl := live_over hPl hn P hPl
      show (f.over P _).lastChildId P = _
      unfold Forest.lastChildId Forest.nbr
      rw [neighbors_live hl]
      simp only [expect_some]
      exact lastChild_none hl (by rw [get_over hPl, if_pos rfl])
    · have hwP : w ≠ P := by simpa using hw
      exact seen_last hPl hn w (fun e => absurd e hwP) fun _ => rfl
    · rw [seen_next hPl hn]; split
      · rename_i e; rw [e, acc_next hPl]
      · rfl
    · exact seen_prev hPl hn w (fun _ _ => rfl) (fun _ _ _ => rfl) fun _ => rfl
  | @before P p y A B hk =>
    have hk' : s.kids P = (A ++ [p]) ++ x :: (y :: B) := by rw [hk]; simp
    have hmid := hm.mid hk'
    have hgp := mid_get hm hk
    have hpl : f.hier.live p := hmid.live p (by simp)
    have hpn : (f.hier.get p).next = some x := by rw [hgp]; rfl
    have hn : ({ f.hier.get p with next := some y } : Neighbors).isAlive = true := hpl
    have hsome : (some y).isSome = (f.hier.get p).next.isSome := by rw [hpn]; rfl
    refine ⟨f.over p { f.hier.get p with next := some y }, ⟨rfl, seen_parent hpl hn rfl, ⟨by simp, fun w _ => ?_⟩,
      ⟨by simp, fun w _ => ?_⟩, ⟨?_, fun w hw => ?_⟩, ⟨by simp, fun w _ => ?_⟩⟩, fun _ => slip_before hm hk, nofun⟩
    · rw [seen_first hpl hn]; split
      · rename_i e; rw [e, acc_first hpl]
      · rfl
    · exact seen_last hpl hn w (fun _ => rfl) fun _ => rfl
    · intro q hq
      simp only [List.mem_singleton] at hq
      subst hq
      rw [seen_next hpl hn, if_pos rfl]
    · rw [seen_next hpl hn, if_neg (by simpa using hw)]
    · exact seen_prev hpl hn w (fun _ _ => hsome) (fun _ _ _ => hsome) fun _ => rfl
  | @beforeFirst P y B hk =>
    have hk' : s.kids P = [] ++ x :: (y :: B) := hk
    have hmid := hm.mid hk'
    have hPl := hmid.liveP
    have hyx : y ≠ x := fun e => by have := hmid.nodup; simp [e] at this
    have hyP : y ≠ P := hmid.ne y (by simp)
    have hyc : (f.hier.get y).prevCyc = some x := by
      have e : x :: y :: B = [x] ++ (y :: B) := rfl
      rw [kid_get hm (P := P) (y := y) (by rw [hk]; simp), hk, e, pc_right _ (by simpa using hyx) (by simp)]; simp
    have hn : ({ f.hier.get P with first := some y } : Neighbors).isAlive = true := hPl
    refine ⟨f.over P { f.hier.get P with first := some y }, ⟨rfl, seen_parent hPl hn rfl, ⟨?_, fun w hw => ?_⟩,
      ⟨?_, fun w hw => ?_⟩, ⟨by simp, fun w _ => ?_⟩, ⟨by simp, fun w _ => ?_⟩⟩, fun _ => slip_before_first hm hk, nofun⟩
    · intro q hq
      simp only [List.mem_singleton] at hq
      subst hq
      rw [seen_first hPl hn, if_pos rfl]
    · rw [seen_first hPl hn, if_neg (by simpa using hw)]
    · intro q hq
      simp only [List.mem_singleton] at hq
      subst hq
      exact acc_last (live_over hPl hn P hPl) (c := y) (by rw [get_over hPl, if_pos rfl]) (by rw [get_over hPl, if_neg hyP]; exact hyc)
    · have hwP : w ≠ P := by simpa using hw
      exact seen_last hPl hn w (fun e => absurd e hwP) fun _ => rfl
    · rw [seen_next hPl hn]; split
      · rename_i e; rw [e, acc_next hPl]
      · rfl
    · exact seen_prev hPl hn w (fun _ _ => rfl) (fun _ _ _ => rfl) fun _ => rfl
  | @after P p y A B hk =>
    have hk' : s.kids P = (A ++ [p]) ++ x :: (y :: B) := by rw [hk]; simp
    have hmid := hm.mid hk'
    have hgp := mid_get hm hk
    have hnm := hm.valid.mid_not_mem hk'
    have hpy : p ≠ y := fun e => by have := hmid.nodup; simp [e, List.nodup_append] at this
    have hpl : f.hier.live p := hmid.live p (by simp)
    have hyl : f.hier.live y := hmid.live y (by simp)
    have hpn : (f.hier.get p).next = some x := by rw [hgp]; rfl
    have hn : ({ f.hier.get y with prevCyc := some p } : Neighbors).isAlive = true := rfl
    obtain ⟨c, hc0⟩ : ∃ c, (A ++ [p]).head? = some c := by cases A <;> exact ⟨_, rfl⟩
    have hcm : c ∈ A ++ [p] := List.mem_of_head? hc0
    have hcy : c ≠ y := fun e => by
      have := hmid.nodup
      rw [List.nodup_append] at this
      exact this.2.2 y (e ▸ hcm) y (by simp) rfl
    refine ⟨f.over y { f.hier.get y with prevCyc := some p }, ⟨rfl, seen_parent hyl hn rfl, ⟨by simp, fun w _ => ?_⟩,
      ⟨by simp, fun w _ => ?_⟩, ⟨by simp, fun w _ => ?_⟩, ⟨?_, fun w hw => ?_⟩⟩, fun _ => slip_after hm hk, nofun⟩
    · rw [seen_first hyl hn]; split
      · rename_i e; rw [e, acc_first hyl]
      · rfl
    · exact seen_last hyl hn w (fun _ => rfl) fun h => absurd h (first_ne hm (P := P) (c := c) (by rw [hk]; simp)
        (by rw [hk', List.head?_append, hc0]; rfl) hcy)
    · rw [seen_next hyl hn]; split
      · rename_i e; rw [e, acc_next hyl]
      · rfl
    · intro q hq
      simp only [List.mem_singleton] at hq
      subst hq
      show (f.over y _).prevSiblingId y = _
      rw [acc_prev (v := p) (by rw [get_over hyl, if_pos rfl]) (live_over hyl hn p hpl), get_over hyl, if_neg hpy, hpn]; rfl
    · have hwy : w ≠ y := by simpa using hw
      exact seen_prev hyl hn w (fun _ _ => rfl) (fun _ _ _ => rfl) fun e => absurd e hwy
  | @afterLast P p c A hk hc0 =>
    have hk' : s.kids P = (A ++ [p]) ++ x :: [] := by rw [hk]; simp
    have hmid := hm.mid hk'
    have hgp := mid_get hm (A := A) (x := p) (B := [x]) hk
    have hcm : c ∈ A ++ [p] := List.mem_of_head? hc0
    have hcP : c ≠ P := hmid.ne c (List.mem_append_left _ hcm)
    have hcl : f.hier.live c := hmid.live c (List.mem_append_left _ hcm)
    have hpl : f.hier.live p := hmid.live p (by simp)
    have hpn : (f.hier.get p).next = some x := by rw [hgp]; rfl
    have hhead : (s.kids P).head? = some c := by rw [hk', List.head?_append, hc0]; rfl
    have hPf : (f.hier.get P).first = some c := by rw [hmid.first, List.head?_append, hc0]; rfl
    have hn : ({ f.hier.get c with prevCyc := some p } : Neighbors).isAlive = true := rfl
    refine ⟨f.over c { f.hier.get c with prevCyc := some p }, ⟨rfl, seen_parent hcl hn rfl, ⟨by simp, fun w _ => ?_⟩,
      ⟨?_, fun w hw => ?_⟩, ⟨by simp, fun w _ => ?_⟩, ⟨?_, fun w hw => ?_⟩⟩, fun _ => slip_after_last hm hk hc0, nofun⟩
    · rw [seen_first hcl hn]; split
      · rename_i e; rw [e, acc_first hcl]
      · rfl
    · intro q hq
      simp only [List.mem_singleton] at hq
      subst hq
      exact acc_last (live_over hcl hn P hmid.liveP) (c := c) (by rw [get_over hcl, if_neg (Ne.symm hcP)]; exact hPf)
        (by rw [get_over hcl, if_pos rfl])
    · have hwP : w ≠ P := by simpa using hw
      exact seen_last hcl hn w (fun _ => rfl) fun h => absurd (first_only hm hhead h) hwP
    · rw [seen_next hcl hn]; split
      · rename_i e; rw [e, acc_next hcl]
      · rfl
    · intro q hq
      simp only [List.mem_singleton] at hq
      subst hq
      show (f.over c _).prevSiblingId c = _
      rw [acc_prev (v := p) (by rw [get_over hcl, if_pos rfl]) (live_over hcl hn p hpl), get_over hcl]
      by_cases e : p = c
      · subst e; rw [if_pos rfl]; show Except.ok ((f.hier.get p).next.bind _) = _; rw [hpn]; rfl
      · rw [if_neg e, hpn]; rfl
    · have hwc : w ≠ c := by simpa using hw
      exact seen_prev hcl hn w (fun _ _ => rfl) (fun _ _ _ => rfl) fun e => absurd e hwc


theorem at_iff_prev (hv : s.Valid) {x y : Nat} {P : Nat} {A B : List Nat} (hk : s.kids P = A ++ x :: y :: B) : s.At x (.before y) := by
  have hk' : s.kids P = (A ++ [x]) ++ y :: B := by rw [hk]; simp
  have hnm := hv.mid_not_mem hk'
  show s.prev y = some x
  have e : s.sibs y = s.kids P := by unfold Shape.sibs; rw [hv.kid_parent (x := y) (p := P) (by rw [hk]; simp)]
  unfold Shape.prev
  rw [e, hk', before_mid hnm.1]; simp

theorem at_iff_next (hv : s.Valid) {x y : Nat} {P : Nat} {A B : List Nat} (hk : s.kids P = A ++ x :: y :: B) : s.At y (.after x) :=
  hv.next_of_prev (at_iff_prev hv hk)

/-- **C84** (the list is complete).  The requests listed in `Slip` are exactly the ones the accessors show to be in place
(`Spec/Careful.lean`). -/
theorem C84_complete (hm : Models f s) {x : Nat} {d : InsertAs} :
    InPlace f x d ↔ ∃ ret first last next prev, Slip s x d ret first last next prev := by
  have hv := hm.valid
  rw [inPlace_iff hm]
  constructor
  · rintro ⟨hat, hno⟩
    obtain ⟨P, A, B, _, hk, hc⟩ := hv.at_split hat
    cases d with
    | firstChildOf a =>
      obtain ⟨rfl, rfl⟩ := hc
      cases B with
      | nil => exact absurd ⟨_, rfl, hk⟩ hno
      | cons y B => exact ⟨_, _, _, _, _, .first hk⟩
    | lastChildOf a =>
      obtain ⟨rfl, rfl⟩ := hc
      rcases snoc_cases A with e | ⟨A', p, e⟩
      · subst e; exact ⟨_, _, _, _, _, .only hk⟩
      · subst e; exact ⟨_, _, _, _, _, .last (A := A') (p := p) (by rw [hk]; simp)⟩
    | previousSiblingOf a =>
      obtain ⟨B', rfl⟩ := hc
      rcases snoc_cases A with e | ⟨A', p, e⟩
      · subst e; exact ⟨_, _, _, _, _, .beforeFirst hk⟩
      · subst e; exact ⟨_, _, _, _, _, (.before (A := A') (B := B') (p := p) (by rw [hk]; simp))⟩
    | nextSiblingOf a =>
      obtain ⟨A', rfl⟩ := hc
      cases B with
      | nil =>
        obtain ⟨c, hc0⟩ : ∃ c, (A' ++ [a]).head? = some c := by cases A' <;> exact ⟨_, rfl⟩
        exact ⟨_, _, _, _, _, .afterLast (A := A') (p := a) (by rw [hk]; simp) hc0⟩
      | cons y B => exact ⟨_, _, _, _, _, .after (A := A') (B := B) (y := y) (p := a) (by rw [hk]; simp)⟩
  · rintro ⟨ret, first, last, next, prev, h⟩
    cases h with
    | @first P y B hk => exact ⟨by show (s.kids P).head? = _; rw [hk]; rfl, by rintro ⟨Q, e, hQ⟩; cases e; rw [hk] at hQ; cases hQ⟩
    | @last P p A hk => exact ⟨by show (s.kids P).getLast? = _; rw [hk]; simp, by rintro ⟨Q, e, hQ⟩; cases e⟩
    | @only P hk => exact ⟨by show (s.kids P).getLast? = _; rw [hk]; rfl, by rintro ⟨Q, e, hQ⟩; cases e⟩
    | @before P p y A B hk =>
      exact ⟨at_iff_prev hv (A := A ++ [p]) (x := x) (y := y) (B := B) (by rw [hk]; simp), by rintro ⟨Q, e, hQ⟩; cases e⟩
    | @beforeFirst P y B hk => exact ⟨at_iff_prev hv (A := []) (x := x) (y := y) (B := B) hk, by rintro ⟨Q, e, hQ⟩; cases e⟩
    | @after P p y A B hk => exact ⟨at_iff_next hv (A := A) (x := p) (y := x) (B := y :: B) hk, by rintro ⟨Q, e, hQ⟩; cases e⟩
    | @afterLast P p c A hk hc0 => exact ⟨at_iff_next hv (A := A) (x := p) (y := x) (B := []) hk, by rintro ⟨Q, e, hQ⟩; cases e⟩

/-- **C84** (when `detach` repairs).  `detach(x)` after an in-place `insert(x, d)`, also one that panicked, ends in the very forest in
which `detach(x)` instead of it would have ended, except for the two kinds of requests in `Lasting` (`Spec/Damage.lean`). -/
theorem C84_detach_repairs (hm : Models f s) {x : Nat} {d : InsertAs} {ret : Bool} {first last next prev : List (Nat × Option Nat)}
    (h : Slip s x d ret first last next prev) :
    ∃ f1, ((Forest.insert x d f = .ok (.ok ()) f1) ∨ ∃ msg, Forest.insert x d f = .fail (.panic msg) f1) ∧
      ((∃ f2, Forest.detach x f1 = .ok () f2 ∧ Forest.detach x f = .ok () f2) ↔ ¬ Lasting f x d) := by
  have hv := hm.valid
  have hD := hm.describes
  have hal : ∀ {P y : Nat}, y ∈ s.kids P → s.alive P = true ∧ s.alive y = true := fun h =>
    ⟨(hv.parent_alive _ _ (hv.kid_parent h)).2, (hv.parent_alive _ _ (hv.kid_parent h)).1⟩
  have hpa : ∀ {P y : Nat}, y ∈ s.kids P → s.parent y = some P := fun h => hv.kid_parent h
  cases h with
  | first hk => exact ⟨_, Or.inl (slip_first hm hk), iff_of_true (repair_first hm hk) (fun h => h)⟩
  | @last P p A hk =>
    have hk' : s.kids P = (A ++ [p]) ++ x :: [] := by rw [hk]; simp
    refine ⟨_, Or.inl (slip_last hm hk), iff_of_false ?_ (not_not.2 ⟨?_, ?_⟩)⟩
    · rintro ⟨f2, h1, h2⟩
      obtain ⟨f3, h3, h4, h4'⟩ := unrepair_last hm hk
      rw [h1] at h3; cases h3
      have hm2 := forest_detach_models hm (x := x) (hal (P := P) (y := x) (by rw [hk]; simp)).2
      obtain ⟨f5, h5, hm5, _⟩ := hm2
      rw [h2] at h5; cases h5
      have hP := (hal (P := P) (y := x) (by rw [hk]; simp)).1
      have e1 := hm5.describes.first P hP
      have e2 := hm5.describes.parent p (hal (P := P) (y := p) (by rw [hk]; simp)).2
      rw [h4] at e1
      rw [h4'] at e2
      have e3 := (hm5.valid.mem_kids p P).2 (Except.ok.inj e2).symm
      cases hkk : (s.detach x).kids P with
      | nil => rw [hkk] at e3; cases e3
      | cons c l => rw [hkk] at e1; cases e1
    · rw [hD.last P (hal (P := P) (y := x) (by rw [hk]; simp)).1, hk]; simp
    · rw [hD.first P (hal (P := P) (y := x) (by rw [hk]; simp)).1, hk']
      intro e
      have e' := Except.ok.inj e
      rw [List.head?_append] at e'
      have hnm := hv.mid_not_mem hk'
      cases A with
      | nil => exact hnm.1 (by cases e'; simp)
      | cons a A => exact hnm.1 (by cases e'; simp)
  | @only P hk =>
    refine ⟨_, Or.inr ⟨_, slip_only hm hk⟩, iff_of_true (repair_only hm hk) fun h => h.2 ?_⟩
    rw [hD.first P (hal (P := P) (y := x) (by rw [hk]; simp)).1, hk]; rfl
  | @before P p y A B hk =>
    refine ⟨_, Or.inl (slip_before hm hk), iff_of_true (repair_before hm hk) fun h => ?_⟩
    have e := h.2
    rw [hD.prev x (hal (P := P) (y := x) (by rw [hk]; simp)).2] at e
    have e2 : s.prev x = some p := at_iff_prev hv hk
    rw [e2] at e; cases e
  | @beforeFirst P y B hk =>
    have hk' : s.kids P = [] ++ x :: (y :: B) := hk
    have hxk := hal (P := P) (y := x) (by rw [hk]; simp)
    refine ⟨_, Or.inl (slip_before_first hm hk), iff_of_false ?_ (not_not.2 ⟨?_, ?_⟩)⟩
    · rintro ⟨f2, h1, h2⟩
      obtain ⟨f3, h3, h4, h4'⟩ := unrepair_before_first hm hk
      rw [h1] at h3; cases h3
      obtain ⟨f5, h5, hm5, _⟩ := forest_detach_models hm (x := x) hxk.2
      rw [h2] at h5; cases h5
      have e1 := hm5.describes.last P hxk.1
      have e2 := hm5.describes.parent x hxk.2
      rw [h4] at e1
      rw [h4'] at e2
      have e3 := hm5.valid.kid_parent (List.mem_of_getLast? (Except.ok.inj e1).symm)
      rw [← Except.ok.inj e2] at e3; cases e3
    · rw [hD.prev y (hal (P := P) (y := y) (by rw [hk]; simp)).2]
      have e2 : s.prev y = some x := at_iff_prev hv (A := []) hk
      rw [e2]
    · rw [hD.prev x hxk.2]
      have e : s.sibs x = s.kids P := by unfold Shape.sibs; rw [hv.kid_parent (x := x) (p := P) (by rw [hk]; simp)]
      unfold Shape.prev
      rw [e, hk', before_mid (by simp)]; rfl
  | @after P p y A B hk => exact ⟨_, Or.inl (slip_after hm hk), iff_of_true (repair_after hm hk) (fun h => h)⟩
  | @afterLast P p c A hk hc0 => exact ⟨_, Or.inl (slip_after_last hm hk hc0), iff_of_true (repair_after_last hm hk hc0) (fun h => h)⟩


/-- **C84 and C39** (exact).  In a consistent forest, an `insert` that returned `Ok` and is followed by `detach` of the same node ends
in the very forest in which `detach` alone would have ended, exactly if the request was not one of the two kinds in `Lasting`
(`Spec/Damage.lean`).  This is the largest part of C39 that holds; `C39_false` shows a request of the first kind. -/
theorem C84_insert_then_detach_exact (hc : Consistent f) {x : Nat} {d : InsertAs} {f1 : Forest T}
    (h : Forest.insert x d f = .ok (.ok ()) f1) :
    (∃ f2, Forest.detach x f1 = .ok () f2 ∧ Forest.detach x f = .ok () f2) ↔ ¬ Lasting f x d := by
  by_cases hip : InPlace f x d
  · obtain ⟨s, hm⟩ := hc
    obtain ⟨ret, first, last, next, prev, hs⟩ := (C84_complete hm).1 hip
    obtain ⟨f1', h1, hiff⟩ := C84_detach_repairs hm hs
    rcases h1 with h1 | ⟨msg, h1⟩
    · rw [h] at h1; cases h1; exact hiff
    · rw [h] at h1; cases h1
  · refine iff_of_true (C39_insert_then_detach_partial hc h hip) fun hl => hip ?_
    cases d with
    | lastChildOf P => exact hl.1
    | previousSiblingOf y => exact hl.1
    | firstChildOf P => exact hl.elim
    | nextSiblingOf y => exact hl.elim

/-- The same under the name of the property it completes. -/
theorem C39_insert_then_detach_exact_partial (hc : Consistent f) {x : Nat} {d : InsertAs} {f1 : Forest T}
    (h : Forest.insert x d f = .ok (.ok ()) f1) :
    (∃ f2, Forest.detach x f1 = .ok () f2 ∧ Forest.detach x f = .ok () f2) ↔ ¬ Lasting f x d :=
  C84_insert_then_detach_exact hc h

/-! ### Examples: all the kinds of requests, on the sample forest (children of 0: 1, 2, 3; of 2: 4, 5) -/

example : Slip Sample.shape 1 (.firstChildOf 0) true [] [] [] [(2, none)] := .first (B := [3]) rfl
example : Slip Sample.shape 3 (.lastChildOf 0) true [] [] [(2, none)] [(3, none)] := .last (A := [1]) rfl
example : Slip Sample.shape 2 (.previousSiblingOf 3) true [] [] [(1, some 3)] [] := .before (P := 0) (A := []) (B := []) rfl
example : Slip Sample.shape 4 (.previousSiblingOf 5) true [(2, some 5)] [(2, some 4)] [] [] := .beforeFirst (P := 2) (B := []) rfl
example : Slip Sample.shape 2 (.nextSiblingOf 1) true [] [] [] [(3, some 1)] := .after (P := 0) (A := []) (B := []) rfl
example : Slip Sample.shape 3 (.nextSiblingOf 2) true [] [(0, some 2)] [] [(1, some 2)] := .afterLast (P := 0) (A := [1]) rfl rfl
example : ∃ f : Forest Nat, ∃ s, Models f s ∧ Slip s 1 (.lastChildOf 0) false [(0, none)] [(0, none)] [] [] :=
  ⟨_, _, Sample.addChild_state (Sample.createRoot_state Sample.new_models (cap := 9) (by decide) 5) (cap := 9) (by decide) 6 (p := 0) rfl,
    .only rfl⟩
example : ∃ f1, Forest.insert 2 (.nextSiblingOf 1) Sample.built = .ok (.ok ()) f1 ∧ ¬ Lasting Sample.built 2 (.nextSiblingOf 1) :=
  ⟨_, rfl, fun h => h⟩
example : ∃ f1, Forest.insert 3 (.lastChildOf 0) Sample.built = .ok (.ok ()) f1 ∧ Lasting Sample.built 3 (.lastChildOf 0) :=
  ⟨_, rfl, by decide, by decide⟩
example : ∃ f1, Forest.insert 1 (.previousSiblingOf 2) Sample.built = .ok (.ok ()) f1 ∧ Lasting Sample.built 1 (.previousSiblingOf 2) :=
  ⟨_, rfl, by decide, by decide⟩

/-! ### The hypotheses can be met

Each example applies the theorem named in its comment to a concrete forest. -/

section
/-- `C39_insert_then_detach_exact_partial`: an insert elsewhere, and one in place. -/
example := C39_insert_then_detach_exact_partial Sample.consistent (x := 2) (d := .lastChildOf 6) rfl

/-- `C39_insert_then_detach_exact_partial`: an insert elsewhere, and one in place (continued). -/
example := C39_insert_then_detach_exact_partial Sample.consistent (x := 3) (d := .lastChildOf 0) rfl

/-- `C84_complete`: the sample forest. -/
example := C84_complete Sample.models (x := 3) (d := .lastChildOf 0)

/-- `C84_insert_then_detach_exact`: an insert in place. -/
example := C84_insert_then_detach_exact Sample.consistent (x := 3) (d := .lastChildOf 0) rfl

/-- `C84_damage`: inserting 3 as the last child of 0, which it is. -/
example : ∃ ret first last next prev f', Slip Sample.shape 3 (.lastChildOf 0) ret first last next prev ∧
    Damage Sample.built f' first last next prev := by
  obtain ⟨ret, first, last, next, prev, h⟩ := (C84_complete Sample.models (x := 3) (d := .lastChildOf 0)).1 (show Forest.lastChildId _ _ = _ by decide)
  obtain ⟨f', h1, _⟩ := C84_damage Sample.models h
  exact ⟨ret, first, last, next, prev, f', h, h1⟩

/-- `C84_detach_repairs`: the same call. -/
example : ∃ f1, ((Forest.insert 3 (.lastChildOf 0) Sample.built = .ok (.ok ()) f1) ∨
      ∃ msg, Forest.insert 3 (.lastChildOf 0) Sample.built = .fail (.panic msg) f1) ∧
    ((∃ f2, Forest.detach 3 f1 = .ok () f2 ∧ Forest.detach 3 Sample.built = .ok () f2) ↔ ¬ Lasting Sample.built 3 (.lastChildOf 0)) := by
  obtain ⟨ret, first, last, next, prev, h⟩ := (C84_complete Sample.models (x := 3) (d := .lastChildOf 0)).1 (show Forest.lastChildId _ _ = _ by decide)
  exact C84_detach_repairs Sample.models h

end

end Treena
