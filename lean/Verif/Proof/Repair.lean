import Verif.Proof.DamageSeen
/-!
# Detaching the node after an in-place `insert`
-/
namespace Treena
open Shape Hier
variable {T : Type} {f : Forest T} {s : Shape} {x P : Nat} {A B : List Nat}

theorem detach_exec {h h1 : Hier} {prev next : Option Nat} (hl : h.live x) (hp : (h.get x).parent = some P)
    (hprev : (h.get x).prevSibling h = .ok prev) (hnext : (h.get x).next = next)
    (hc : connectTriangle (some P) prev next h = .ok () h1) (h1l : h1.live x) :
    Hier.detach x h = .ok () (h1.put x { h1.get x with parent := none, next := none, prevCyc := some x }) := by
  have e1 : (h.get x).getParent = .ok (some P) := by rw [getParent_live hl, hp]
  have e2 : (h.get x).nextSibling = .ok next := by rw [nextSibling_live hl, hnext]
  simp [Hier.detach, nbrOf_live hl, M.read, e1, e2, hprev, hc, updNbr_live h1l]

theorem forest_detach_of_hier {h : Hier} (hx : Hier.detach x f.hier = .ok () h) :
    Forest.detach x f = .ok () { f with hier := h } := by
  simp [Forest.detach, Forest.onHier, M.zoom, hx]

/-- Both calls end in the same forest. -/
def SameDetach (f f1 : Forest T) (x : Nat) : Prop := ∃ f2, Forest.detach x f1 = .ok () f2 ∧ Forest.detach x f = .ok () f2

theorem sameDetach_of {g h1 h2 : Hier} {prev next : Option Nat} (hl : f.hier.live x) (hp : (f.hier.get x).parent = some P)
    (hprev : (f.hier.get x).prevSibling f.hier = .ok prev) (hnext : (f.hier.get x).next = next)
    (hc : connectTriangle (some P) prev next f.hier = .ok () h1) (h1l : h1.live x)
    (gx : g.get x = f.hier.get x) (gprev : (f.hier.get x).prevSibling g = .ok prev)
    (gc : connectTriangle (some P) prev next g = .ok () h2) (hlen : h2.nbrs.length = h1.nbrs.length)
    (he : ∀ w, h2.get w = h1.get w) : SameDetach f { f with hier := g } x := by
  have e : h2 = h1 := ext_get hlen he
  subst e
  refine ⟨_, forest_detach_of_hier (f := { f with hier := g }) (detach_exec (by unfold Hier.live; rw [gx]; exact hl) (by rw [gx]; exact hp)
    (by rw [gx]; exact gprev) (by rw [gx]; exact hnext) gc h1l), ?_⟩
  rw [forest_detach_of_hier (detach_exec hl hp hprev hnext hc h1l)]

theorem put_length (h : Hier) (a : Nat) (nb : Neighbors) : (h.put a nb).nbrs.length = h.nbrs.length := by simp [Hier.put]

theorem live_put' {h : Hier} {a z : Nat} {nb : Neighbors} (ha : h.live a) (hn : nb.isAlive = true) (hz : h.live z) : (h.put a nb).live z := by
  rw [live_put (live_lt ha)]; split
  · exact hn
  · exact hz

theorem last_next (hm : Models f s) {z : Nat} (hz : (s.kids P).getLast? = some z) : (f.hier.get z).next = none := by
  have hzm := List.mem_of_getLast? hz
  rw [kid_get hm hzm]
  show nx _ z = none
  unfold nx
  rw [(after_eq_nil_iff (hm.valid.kids_nodup P) hzm).2 hz]; rfl

/-- Repaired: `FirstChildOf`. -/
theorem repair_first (hm : Models f s) {y : Nat} (hk : s.kids P = x :: y :: B) :
    SameDetach f { f with hier := f.hier.put y { f.hier.get y with prevCyc := (y :: B).getLast? } } x := by
  have hk' : s.kids P = [] ++ x :: (y :: B) := hk
  have hmid := hm.mid hk'
  have hgx := mid_get hm hk'
  have hxP : x ≠ P := hmid.ne x (by simp)
  have hyP : y ≠ P := hmid.ne y (by simp)
  have hyx : y ≠ x := fun e => by have := hmid.nodup; simp [e] at this
  have hyl : f.hier.live y := hmid.live y (by simp)
  have hxl : f.hier.live x := hmid.live x (by simp)
  obtain ⟨z, hz, hzm⟩ := getLast?_of_mem (l := y :: B) (x := y) (by simp)
  have hzk : (s.kids P).getLast? = some z := by rw [hk, List.getLast?_cons, hz]; rfl
  have hzn := last_next hm hzk
  have hzl : f.hier.live z := hmid.live z (by simp only [List.nil_append]; exact List.mem_cons_of_mem _ hzm)
  have hxc : (f.hier.get x).prevCyc = some z := by rw [hgx]; simp [List.getLast?_cons, hz]
  have hPf : (f.hier.get P).first = some x := by rw [hmid.first]; rfl
  have hyn : ({ f.hier.get y with prevCyc := (y :: B).getLast? } : Neighbors).isAlive = true := by
    show (y :: B).getLast?.isSome = true; rw [hz]; rfl
  set g := f.hier.put y { f.hier.get y with prevCyc := (y :: B).getLast? } with hg
  have gget : ∀ w, g.get w = if w = y then { f.hier.get y with prevCyc := (y :: B).getLast? } else f.hier.get w := get_put (live_lt hyl) _
  have gl : ∀ w, f.hier.live w → g.live w := fun w hw => live_put' hyl hyn hw
  have glen : g.nbrs.length = f.hier.nbrs.length := put_length _ _ _
  clear_value g
  have gx : g.get x = f.hier.get x := by rw [gget, if_neg (Ne.symm hyx)]
  have gP : g.get P = f.hier.get P := by rw [gget, if_neg (Ne.symm hyP)]
  have gzn : (g.get z).next = none := by
    rw [gget]; split
    · rename_i e; rw [e] at hzn; exact hzn
    · exact hzn
  have c1 := connect_pb (h := f.hier) (l := some z) (Ne.symm hyP) hmid.liveP hyl (lastChild_some hmid.liveP hPf hxc)
  have c2 := connect_pb (h := g) (l := some z) (Ne.symm hyP) (gl P hmid.liveP) (gl y hyl)
    (lastChild_some (gl P hmid.liveP) (by rw [gP]; exact hPf) (by rw [gx]; exact hxc))
  refine sameDetach_of hxl (by rw [hgx]) (by rw [prevSibling_eq hxc hzl, hzn]; rfl) (by rw [hgx]; rfl) c1 ?_ gx ?_ c2 ?_ ?_
  · exact live_put' (live_put' hyl rfl hmid.liveP) (by show (f.hier.get P).isAlive = true; exact hmid.liveP) (live_put' hyl rfl hxl)
  · rw [← gx, prevSibling_eq (h := g) (v := z) (by rw [gx]; exact hxc) (gl z hzl), gzn]; rfl
  · simp [glen, put_length]
  · intro w
    rw [get_put (by simpa [put_length] using live_lt (gl P hmid.liveP)), get_put (live_lt (gl y hyl)),
      get_put (by simpa [put_length] using live_lt hmid.liveP), get_put (live_lt hyl), gP]
    simp only [gget]
    by_cases e1 : w = P
    · simp [e1]
    · by_cases e2 : w = y <;> simp [e1, e2]


/-- Repaired: `LastChildOf` of an only child (which panicked). -/
theorem repair_only (hm : Models f s) (hk : s.kids P = [x]) :
    SameDetach f { f with hier := f.hier.put P { f.hier.get P with first := none } } x := by
  have hk' : s.kids P = [] ++ x :: [] := hk
  have hmid := hm.mid hk'
  have hgx := mid_get hm hk'
  have hxP : x ≠ P := hmid.ne x (by simp)
  have hxl : f.hier.live x := hmid.live x (by simp)
  have hxc : (f.hier.get x).prevCyc = some x := by rw [hgx]; rfl
  have hxn : (f.hier.get x).next = none := by rw [hgx]; rfl
  set g := f.hier.put P { f.hier.get P with first := none } with hg
  have gget : ∀ w, g.get w = if w = P then { f.hier.get P with first := none } else f.hier.get w := get_put (live_lt hmid.liveP) _
  have gl : ∀ w, f.hier.live w → g.live w := fun w hw => live_put' hmid.liveP hmid.liveP hw
  have glen : g.nbrs.length = f.hier.nbrs.length := put_length _ _ _
  clear_value g
  have gx : g.get x = f.hier.get x := by rw [gget, if_neg hxP]
  refine sameDetach_of hxl (by rw [hgx]) (by rw [prevSibling_eq hxc hxl, hxn]; rfl) hxn (connect_p hmid.liveP) ?_ gx ?_
    (connect_p (gl P hmid.liveP)) ?_ ?_
  · exact live_put' hmid.liveP (by exact hmid.liveP) hxl
  · rw [← gx, prevSibling_eq (h := g) (v := x) (by rw [gx]; exact hxc) (gl x hxl), gx, hxn]; rfl
  · simp [glen, put_length]
  · intro w
    rw [get_put (live_lt (gl P hmid.liveP)), get_put (live_lt hmid.liveP)]
    simp only [gget]
    by_cases e1 : w = P <;> simp [e1]

/-- Repaired: `PreviousSiblingOf(y)` with a previous sibling. -/
theorem repair_before (hm : Models f s) {p y : Nat} (hk : s.kids P = A ++ p :: x :: y :: B) :
    SameDetach f { f with hier := f.hier.put p { f.hier.get p with next := some y } } x := by
  have hk' : s.kids P = (A ++ [p]) ++ x :: (y :: B) := by rw [hk]; simp
  have hmid := hm.mid hk'
  have hgx := mid_get hm hk'
  have hgp := mid_get hm hk
  have hnm := hm.valid.mid_not_mem hk'
  have hpx : p ≠ x := fun e => hnm.1 (by simp [e])
  have hpy : p ≠ y := fun e => by have := hmid.nodup; simp [e, List.nodup_append] at this
  have hpl : f.hier.live p := hmid.live p (by simp)
  have hyl : f.hier.live y := hmid.live y (by simp)
  have hxl : f.hier.live x := hmid.live x (by simp)
  have hxc : (f.hier.get x).prevCyc = some p := by rw [hgx]; simp
  have hxn : (f.hier.get x).next = some y := by rw [hgx]; rfl
  have hpn : (f.hier.get p).next = some x := by rw [hgp]; rfl
  set g := f.hier.put p { f.hier.get p with next := some y } with hg
  have gget : ∀ w, g.get w = if w = p then { f.hier.get p with next := some y } else f.hier.get w := get_put (live_lt hpl) _
  have gl : ∀ w, f.hier.live w → g.live w := fun w hw => live_put' hpl hpl hw
  have glen : g.nbrs.length = f.hier.nbrs.length := put_length _ _ _
  clear_value g
  have gx : g.get x = f.hier.get x := by rw [gget, if_neg (Ne.symm hpx)]
  refine sameDetach_of hxl (by rw [hgx]) (by rw [prevSibling_eq hxc hpl, hpn]; rfl) hxn (connect_pab hpy hpl hyl) ?_ gx ?_
    (connect_pab hpy (gl p hpl) (gl y hyl)) ?_ ?_
  · exact live_put' (live_put' hpl (by exact hpl) hyl) (by rfl) (live_put' hpl (by exact hpl) hxl)
  · rw [← gx, prevSibling_eq (h := g) (v := p) (by rw [gx]; exact hxc) (gl p hpl), gget, if_pos rfl]; rfl
  · simp [glen, put_length]
  · intro w
    rw [get_put (by simpa [put_length] using live_lt (gl y hyl)), get_put (live_lt (gl p hpl)),
      get_put (by simpa [put_length] using live_lt hyl), get_put (live_lt hpl)]
    simp only [gget]
    by_cases e1 : w = y
    · simp [e1, Ne.symm hpy]
    · by_cases e2 : w = p <;> simp [e1, e2, hpy]

/-- Repaired: `NextSiblingOf(p)` with a next sibling. -/
theorem repair_after (hm : Models f s) {p y : Nat} (hk : s.kids P = A ++ p :: x :: y :: B) :
    SameDetach f { f with hier := f.hier.put y { f.hier.get y with prevCyc := some p } } x := by
  have hk' : s.kids P = (A ++ [p]) ++ x :: (y :: B) := by rw [hk]; simp
  have hmid := hm.mid hk'
  have hgx := mid_get hm hk'
  have hgp := mid_get hm hk
  have hnm := hm.valid.mid_not_mem hk'
  have hpx : p ≠ x := fun e => hnm.1 (by simp [e])
  have hyx : y ≠ x := fun e => hnm.2 (by simp [e])
  have hpy : p ≠ y := fun e => by have := hmid.nodup; simp [e, List.nodup_append] at this
  have hpl : f.hier.live p := hmid.live p (by simp)
  have hyl : f.hier.live y := hmid.live y (by simp)
  have hxl : f.hier.live x := hmid.live x (by simp)
  have hxc : (f.hier.get x).prevCyc = some p := by rw [hgx]; simp
  have hxn : (f.hier.get x).next = some y := by rw [hgx]; rfl
  have hpn : (f.hier.get p).next = some x := by rw [hgp]; rfl
  set g := f.hier.put y { f.hier.get y with prevCyc := some p } with hg
  have gget : ∀ w, g.get w = if w = y then { f.hier.get y with prevCyc := some p } else f.hier.get w := get_put (live_lt hyl) _
  have gl : ∀ w, f.hier.live w → g.live w := fun w hw => live_put' hyl rfl hw
  have glen : g.nbrs.length = f.hier.nbrs.length := put_length _ _ _
  clear_value g
  have gx : g.get x = f.hier.get x := by rw [gget, if_neg (Ne.symm hyx)]
  have gp : g.get p = f.hier.get p := by rw [gget, if_neg hpy]
  refine sameDetach_of hxl (by rw [hgx]) (by rw [prevSibling_eq hxc hpl, hpn]; rfl) hxn (connect_pab hpy hpl hyl) ?_ gx ?_
    (connect_pab hpy (gl p hpl) (gl y hyl)) ?_ ?_
  · exact live_put' (live_put' hpl (by exact hpl) hyl) (by rfl) (live_put' hpl (by exact hpl) hxl)
  · rw [← gx, prevSibling_eq (h := g) (v := p) (by rw [gx]; exact hxc) (gl p hpl), gp, hpn]; rfl
  · simp [glen, put_length]
  · intro w
    rw [get_put (by simpa [put_length] using live_lt (gl y hyl)), get_put (live_lt (gl p hpl)),
      get_put (by simpa [put_length] using live_lt hyl), get_put (live_lt hpl), gp]
    simp only [gget]
    by_cases e1 : w = y
    · simp [e1]
    · by_cases e2 : w = p <;> simp [e1, e2]

/-- Repaired: `NextSiblingOf(p)` of the last child. -/
theorem repair_after_last (hm : Models f s) {p c : Nat} (hk : s.kids P = A ++ [p, x]) (hc0 : (A ++ [p]).head? = some c) :
    SameDetach f { f with hier := f.hier.put c { f.hier.get c with prevCyc := some p } } x := by
  have hk' : s.kids P = (A ++ [p]) ++ x :: [] := by rw [hk]; simp
  have hmid := hm.mid hk'
  have hgx := mid_get hm hk'
  have hgp := mid_get hm (A := A) (x := p) (B := [x]) hk
  have hnm := hm.valid.mid_not_mem hk'
  have hpx : p ≠ x := fun e => hnm.1 (by simp [e])
  have hpP : p ≠ P := hmid.ne p (by simp)
  have hcm : c ∈ A ++ [p] := List.mem_of_head? hc0
  have hcx : c ≠ x := fun e => hnm.1 (e ▸ hcm)
  have hcP : c ≠ P := hmid.ne c (List.mem_append_left _ hcm)
  have hcl : f.hier.live c := hmid.live c (List.mem_append_left _ hcm)
  have hpl : f.hier.live p := hmid.live p (by simp)
  have hxl : f.hier.live x := hmid.live x (by simp)
  have hxc : (f.hier.get x).prevCyc = some p := by rw [hgx]; simp
  have hxn : (f.hier.get x).next = none := by rw [hgx]; rfl
  have hpn : (f.hier.get p).next = some x := by rw [hgp]; rfl
  have hPf : (f.hier.get P).first = some c := by rw [hmid.first, List.head?_append, hc0]; rfl
  set g := f.hier.put c { f.hier.get c with prevCyc := some p } with hg
  have gget : ∀ w, g.get w = if w = c then { f.hier.get c with prevCyc := some p } else f.hier.get w := get_put (live_lt hcl) _
  have gl : ∀ w, f.hier.live w → g.live w := fun w hw => live_put' hcl rfl hw
  have glen : g.nbrs.length = f.hier.nbrs.length := put_length _ _ _
  clear_value g
  have gx : g.get x = f.hier.get x := by rw [gget, if_neg (Ne.symm hcx)]
  have gP : g.get P = f.hier.get P := by rw [gget, if_neg (Ne.symm hcP)]
  have gpn : (g.get p).next = some x := by
    rw [gget]; split
    · rename_i e; rw [e] at hpn; exact hpn
    · exact hpn
  refine sameDetach_of hxl (by rw [hgx]) (by rw [prevSibling_eq hxc hpl, hpn]; rfl) hxn
    (connect_pa (Ne.symm hpP) hpl hmid.liveP hcl hPf) ?_ gx ?_
    (connect_pa (Ne.symm hpP) (gl p hpl) (gl P hmid.liveP) (gl c hcl) (by rw [gP]; exact hPf)) ?_ ?_
  · exact live_put' (live_put' hpl (by exact hpl) hcl) (by rfl) (live_put' hpl (by exact hpl) hxl)
  · rw [← gx, prevSibling_eq (h := g) (v := p) (by rw [gx]; exact hxc) (gl p hpl), gpn]; rfl
  · simp [glen, put_length]
  · intro w
    rw [get_put (by simpa [put_length] using live_lt (gl c hcl)), get_put (live_lt (gl p hpl)), get_put (live_lt (gl p hpl)),
      get_put (by simpa [put_length] using live_lt hcl), get_put (live_lt hpl), get_put (live_lt hpl)]
    simp only [gget]
    by_cases e1 : w = c
    · subst e1
      by_cases e2 : w = p
      · subst e2; simp
      · simp [e2]
    · by_cases e2 : w = p
      · subst e2; simp [e1]
      · simp [e1, e2]

/-- Not repaired: `LastChildOf` with a previous sibling: the other children are lost. -/
theorem unrepair_last (hm : Models f s) {p : Nat} (hk : s.kids P = A ++ [p, x]) :
    ∃ f2, Forest.detach x { f with hier := f.hier.put p { f.hier.get p with next := none } } = .ok () f2 ∧
      f2.firstChildId P = .ok none ∧ f2.parentId p = .ok (some P) := by
  have hk' : s.kids P = (A ++ [p]) ++ x :: [] := by rw [hk]; simp
  have hmid := hm.mid hk'
  have hgx := mid_get hm hk'
  have hgp := mid_get hm (A := A) (x := p) (B := [x]) hk
  have hnm := hm.valid.mid_not_mem hk'
  have hpx : p ≠ x := fun e => hnm.1 (by simp [e])
  have hpP : p ≠ P := hmid.ne p (by simp)
  have hxP : x ≠ P := hmid.ne x (by simp)
  have hpl : f.hier.live p := hmid.live p (by simp)
  have hxl : f.hier.live x := hmid.live x (by simp)
  have hxc : (f.hier.get x).prevCyc = some p := by rw [hgx]; simp
  have hxn : (f.hier.get x).next = none := by rw [hgx]; rfl
  set g := f.hier.put p { f.hier.get p with next := none } with hg
  have gget : ∀ w, g.get w = if w = p then { f.hier.get p with next := none } else f.hier.get w := get_put (live_lt hpl) _
  have gl : ∀ w, f.hier.live w → g.live w := fun w hw => live_put' hpl hpl hw
  have glen : g.nbrs.length = f.hier.nbrs.length := put_length _ _ _
  clear_value g
  have gx : g.get x = f.hier.get x := by rw [gget, if_neg (Ne.symm hpx)]
  have hgprev : (g.get x).prevSibling g = .ok none := by
    rw [prevSibling_eq (h := g) (v := p) (by rw [gx]; exact hxc) (gl p hpl), gget, if_pos rfl]; rfl
  have h1l : (g.put P { g.get P with first := none }).live x := live_put' (gl P hmid.liveP) (gl P hmid.liveP) (gl x hxl)
  have hd := detach_exec (gl x hxl) (by rw [gx, hgx]) hgprev (by rw [gx]; exact hxn) (connect_p (gl P hmid.liveP)) h1l
  have hget : ∀ w, ((g.put P { g.get P with first := none }).put x
      { (g.put P { g.get P with first := none }).get x with parent := none, next := none, prevCyc := some x }).get w =
      if w = x then { (g.put P { g.get P with first := none }).get x with parent := none, next := none, prevCyc := some x }
      else if w = P then { g.get P with first := none } else g.get w := fun w => by
    rw [get_put (live_lt h1l) _ w, get_put (live_lt (gl P hmid.liveP)) _ w]
  refine ⟨_, forest_detach_of_hier (f := { f with hier := g }) hd, ?_, ?_⟩
  · rw [acc_first (f := { f with hier := _ })]
    · show Except.ok (Hier.get _ P).first = _
      rw [hget, if_neg (Ne.symm hxP), if_pos rfl]
    · unfold Hier.live; show (Hier.get _ P).isAlive = true
      rw [hget, if_neg (Ne.symm hxP), if_pos rfl]; exact gl P hmid.liveP
  · rw [acc_parent (f := { f with hier := _ })]
    · show Except.ok (Hier.get _ p).parent = _
      rw [hget, if_neg hpx, if_neg hpP, gget, if_pos rfl, hgp]
    · unfold Hier.live; show (Hier.get _ p).isAlive = true
      rw [hget, if_neg hpx, if_neg hpP]; exact gl p hpl

/-- Not repaired: `PreviousSiblingOf(y)` of the first child: the detached node is reported as the last child. -/
theorem unrepair_before_first (hm : Models f s) {y : Nat} (hk : s.kids P = x :: y :: B) :
    ∃ f2, Forest.detach x { f with hier := f.hier.put P { f.hier.get P with first := some y } } = .ok () f2 ∧
      f2.lastChildId P = .ok (some x) ∧ f2.parentId x = .ok none := by
  have hk' : s.kids P = [] ++ x :: (y :: B) := hk
  have hmid := hm.mid hk'
  have hgx := mid_get hm hk'
  have hxP : x ≠ P := hmid.ne x (by simp)
  have hyP : y ≠ P := hmid.ne y (by simp)
  have hyx : y ≠ x := fun e => by have := hmid.nodup; simp [e] at this
  have hyl : f.hier.live y := hmid.live y (by simp)
  have hxl : f.hier.live x := hmid.live x (by simp)
  obtain ⟨z, hz, hzm⟩ := getLast?_of_mem (l := y :: B) (x := y) (by simp)
  have hzk : (s.kids P).getLast? = some z := by rw [hk, List.getLast?_cons, hz]; rfl
  have hzn := last_next hm hzk
  have hzmem : z ∈ ([] : List Nat) ++ x :: y :: B := by simp only [List.nil_append]; exact List.mem_cons_of_mem _ hzm
  have hzl : f.hier.live z := hmid.live z hzmem
  have hzP : z ≠ P := hmid.ne z hzmem
  have hxc : (f.hier.get x).prevCyc = some z := by rw [hgx]; simp [List.getLast?_cons, hz]
  have hyc : (f.hier.get y).prevCyc = some x := by
    have e : x :: y :: B = [x] ++ (y :: B) := rfl
    rw [kid_get hm (P := P) (y := y) (by rw [hk]; simp), hk, e, pc_right _ (by simpa using hyx) (by simp)]; simp
  set g := f.hier.put P { f.hier.get P with first := some y } with hg
  have gget : ∀ w, g.get w = if w = P then { f.hier.get P with first := some y } else f.hier.get w := get_put (live_lt hmid.liveP) _
  have gl : ∀ w, f.hier.live w → g.live w := fun w hw => live_put' hmid.liveP hmid.liveP hw
  have glen : g.nbrs.length = f.hier.nbrs.length := put_length _ _ _
  clear_value g
  have gx : g.get x = f.hier.get x := by rw [gget, if_neg hxP]
  have gy : g.get y = f.hier.get y := by rw [gget, if_neg hyP]
  have hgprev : (g.get x).prevSibling g = .ok none := by
    rw [prevSibling_eq (h := g) (v := z) (by rw [gx]; exact hxc) (gl z hzl), gget, if_neg hzP, hzn]; rfl
  have hcon := connect_pb (h := g) (l := some x) (Ne.symm hyP) (gl P hmid.liveP) (gl y hyl)
    (lastChild_some (gl P hmid.liveP) (c := y) (by rw [gget, if_pos rfl]) (by rw [gy]; exact hyc))
  set g1 := (g.put y { g.get y with parent := some P, prevCyc := some ((some x).getD y) }).put P { g.get P with first := some y } with hg1
  have gP1 : (g.put y { g.get y with parent := some P, prevCyc := some ((some x).getD y) }).live P := live_put' (gl y hyl) rfl (gl P hmid.liveP)
  have h1l : g1.live x := live_put' gP1 (gl P hmid.liveP) (live_put' (gl y hyl) rfl (gl x hxl))
  have hd := detach_exec (gl x hxl) (by rw [gx, hgx]) hgprev (by rw [gx, hgx]; rfl) hcon h1l
  have hget : ∀ w, (g1.put x { g1.get x with parent := none, next := none, prevCyc := some x }).get w =
      if w = x then { g1.get x with parent := none, next := none, prevCyc := some x }
      else if w = P then { g.get P with first := some y } else if w = y then { g.get y with parent := some P, prevCyc := some x } else g.get w :=
    fun w => by
      rw [get_put (live_lt h1l) _ w, hg1, get_put (live_lt gP1) _ w, get_put (live_lt (gl y hyl)) _ w]; rfl
  refine ⟨_, forest_detach_of_hier (f := { f with hier := g }) hd, ?_, ?_⟩
  · refine acc_last (f := { f with hier := _ }) (c := y) ?_ ?_ ?_
    · unfold Hier.live; show (Hier.get _ P).isAlive = true
      rw [hget, if_neg (Ne.symm hxP), if_pos rfl]; exact gl P hmid.liveP
    · show (Hier.get _ P).first = _
      rw [hget, if_neg (Ne.symm hxP), if_pos rfl]
    · show (Hier.get _ y).prevCyc = _
      rw [hget, if_neg hyx, if_neg hyP, if_pos rfl]
  · rw [acc_parent (f := { f with hier := _ })]
    · show Except.ok (Hier.get _ x).parent = _
      rw [hget, if_pos rfl]
    · unfold Hier.live; show (Hier.get _ x).isAlive = true
      rw [hget, if_pos rfl]; rfl

end Treena
