import Verif.Proof.Repair
/-!
# Running calls on a forest given by its four link functions
-/
namespace Treena
open Shape Hier

/-- The arena has `n` slots and these links. -/
structure Is (h : Hier) (n : Nat) (pa pc nx fi : Nat → Option Nat) : Prop where
  len : h.nbrs.length = n
  get : ∀ w, h.get w = ⟨pa w, pc w, nx w, fi w⟩

namespace Is
variable {h : Hier} {n : Nat} {pa pc nx fi : Nat → Option Nat}

theorem of (h : Hier) : Is h h.nbrs.length (fun w => (h.get w).parent) (fun w => (h.get w).prevCyc) (fun w => (h.get w).next)
    (fun w => (h.get w).first) := ⟨rfl, fun _ => rfl⟩

theorem live (hi : Is h n pa pc nx fi) {w v : Nat} (hw : pc w = some v) : h.live w :=
  live_iff_prevCyc.2 ⟨v, by rw [hi.get]; exact hw⟩

theorem ext (hi : Is h n pa pc nx fi) {h' : Hier} {pa' pc' nx' fi' : Nat → Option Nat} (hi' : Is h' n pa' pc' nx' fi')
    (h1 : ∀ w, pa' w = pa w) (h2 : ∀ w, pc' w = pc w) (h3 : ∀ w, nx' w = nx w) (h4 : ∀ w, fi' w = fi w) : h' = h :=
  ext_get (by rw [hi.len, hi'.len]) fun w => by rw [hi.get, hi'.get, h1, h2, h3, h4]

theorem put (hi : Is h n pa pc nx fi) {a va : Nat} (ha : pc a = some va) (p c x f : Option Nat) :
    Is (h.put a ⟨p, c, x, f⟩) n (upd pa a p) (upd pc a c) (upd nx a x) (upd fi a f) := by
  refine ⟨by rw [put_length, hi.len], fun w => ?_⟩
  rw [get_put (live_lt (hi.live ha)), hi.get w]
  by_cases e : w = a <;> simp [upd, e]

theorem cong (hi : Is h n pa pc nx fi) {pa' pc' nx' fi' : Nat → Option Nat}
    (h1 : ∀ w, pa w = pa' w) (h2 : ∀ w, pc w = pc' w) (h3 : ∀ w, nx w = nx' w) (h4 : ∀ w, fi w = fi' w) : Is h n pa' pc' nx' fi' :=
  ⟨hi.len, fun w => by rw [hi.get, h1, h2, h3, h4]⟩

theorem pab (hi : Is h n pa pc nx fi) (p : Nat) {a b va vb : Nat} (hab : a ≠ b) (ha : pc a = some va) (hb : pc b = some vb) :
    ∃ h', connectTriangle (some p) (some a) (some b) h = .ok () h' ∧
      Is h' n (upd (upd pa a (some p)) b (some p)) (upd pc b (some a)) (upd nx a (some b)) fi := by
  refine ⟨_, connect_pab hab (hi.live ha) (hi.live hb), ?_⟩
  have e1 : ({ h.get a with parent := some p, next := some b } : Neighbors) = ⟨some p, pc a, some b, fi a⟩ := by rw [hi.get]
  have e2 : ({ h.get b with parent := some p, prevCyc := some a } : Neighbors) = ⟨some p, some a, nx b, fi b⟩ := by rw [hi.get]
  rw [e1, e2]
  refine ((hi.put ha _ _ _ _).put (a := b) (va := vb) (by simp [upd, Ne.symm hab, hb]) _ _ _ _).cong ?_ ?_ ?_ ?_ <;> intro w <;> simp only [upd] <;>
    by_cases e : w = b <;> by_cases e' : w = a <;> simp [e, e', Ne.symm hab] <;> simp_all

theorem paE (hi : Is h n pa pc nx fi) {p a c va vp vc : Nat} (hpa : p ≠ a) (ha : pc a = some va) (hp : pc p = some vp) (hf : fi p = some c)
    (hc : pc c = some vc) :
    ∃ h', connectTriangle (some p) (some a) none h = .ok () h' ∧
      Is h' n (upd pa a (some p)) (upd pc c (some a)) (upd nx a none) fi := by
  refine ⟨_, connect_pa hpa (hi.live ha) (hi.live hp) (hi.live hc) (by rw [hi.get]; exact hf), ?_⟩
  have e1 : ({ h.get a with parent := some p, next := none } : Neighbors) = ⟨some p, pc a, none, fi a⟩ := by rw [hi.get]
  rw [e1]
  have hi1 := hi.put ha (some p) (pc a) none (fi a)
  obtain ⟨v', hv'⟩ : ∃ v', (upd pc a (pc a)) c = some v' := by
    by_cases e : c = a
    · subst e; exact ⟨_, by simp [upd, hc]; rfl⟩
    · exact ⟨_, by simp [upd, e, hc]; rfl⟩
  rw [hi1.get c]
  refine (hi1.put hv' _ _ _ _).cong ?_ ?_ ?_ ?_ <;> intro w <;> simp only [upd] <;>
    by_cases e : w = c <;> by_cases e' : w = a <;> simp_all

theorem pbE (hi : Is h n pa pc nx fi) {p b c l vb vp : Nat} (hpb : p ≠ b) (hp : pc p = some vp) (hb : pc b = some vb) (hf : fi p = some c)
    (hl : pc c = some l) :
    ∃ h', connectTriangle (some p) none (some b) h = .ok () h' ∧
      Is h' n (upd pa b (some p)) (upd pc b (some l)) nx (upd fi p (some b)) := by
  refine ⟨_, connect_pb (l := some l) hpb (hi.live hp) (hi.live hb)
    (lastChild_some (hi.live hp) (c := c) (by rw [hi.get]; exact hf) (by rw [hi.get]; exact hl)), ?_⟩
  have e1 : ({ h.get b with parent := some p, prevCyc := some ((some l).getD b) } : Neighbors) = ⟨some p, some l, nx b, fi b⟩ := by
    rw [hi.get]; rfl
  have e2 : ({ h.get p with first := some b } : Neighbors) = ⟨pa p, pc p, nx p, some b⟩ := by rw [hi.get]
  rw [e1, e2]
  refine ((hi.put hb _ _ _ _).put (a := p) (va := vp) (by simp [upd, hpb, hp]) _ _ _ _).cong ?_ ?_ ?_ ?_ <;> intro w <;> simp only [upd] <;>
    by_cases e : w = p <;> by_cases e' : w = b <;> simp_all

theorem prevSibling (hi : Is h n pa pc nx fi) {x v u : Nat} (hx : pc x = some v) (hv : pc v = some u) :
    (h.get x).prevSibling h = .ok ((nx v).bind fun _ => some v) := by
  rw [prevSibling_eq (h := h) (v := v) (by rw [hi.get]; exact hx) (hi.live hv), hi.get v]

/-- `detach` of a child. -/
theorem detach (hi : Is h n pa pc nx fi) {x v u P : Nat} (hx : pc x = some v) (hv : pc v = some u) (hp : pa x = some P) {h1 : Hier}
    {pa' pc' nx' fi' : Nat → Option Nat}
    (hc : connectTriangle (some P) ((nx v).bind fun _ => some v) (nx x) h = .ok () h1) (hi1 : Is h1 n pa' pc' nx' fi') {w : Nat}
    (hx1 : pc' x = some w) :
    ∃ h', Hier.detach x h = .ok () h' ∧ Is h' n (upd pa' x none) (upd pc' x (some x)) (upd nx' x none) fi' := by
  refine ⟨_, detach_exec (hi.live hx) (by rw [hi.get]; exact hp) (hi.prevSibling hx hv) (by rw [hi.get]) hc (hi1.live hx1), ?_⟩
  have e1 : ({ h1.get x with parent := none, next := none, prevCyc := some x } : Neighbors) = ⟨none, some x, none, fi' x⟩ := by rw [hi1.get]
  rw [e1]
  refine (hi1.put hx1 _ _ _ _).cong (fun _ => rfl) (fun _ => rfl) (fun _ => rfl) fun y => ?_
  simp only [upd]; split
  · rename_i e; rw [e]
  · rfl

/-- `transplant` of one node. -/
theorem transplant (hi : Is h n pa pc nx fi) {x v u P : Nat} {Q : Option Nat} (hx : pc x = some v) (hv : pc v = some u) (hp : pa x = Q)
    (hcyc : wouldMakeCyclicLinks h x x P = .ok false) (hxP : x ≠ P) {h1 : Hier} {pa' pc' nx' fi' : Nat → Option Nat}
    (hc : connectTriangle Q ((nx v).bind fun _ => some v) (nx x) h = .ok () h1) (hi1 : Is h1 n pa' pc' nx' fi') {w : Nat}
    (hx1 : pc' x = some w) :
    ∃ h2, Is h2 n (upd pa' x (some P)) pc' nx' fi' ∧ ∀ prev next, Hier.transplant x x P prev next h =
      match transplantConnect x x P prev next h2 with
      | .ok _ h3 => .ok (.ok ()) h3
      | .fail e h3 => .fail e h3 := by
  have hd : transplantDisconnect x x h = .ok () h1 := by
    have hl := hi.live hx
    unfold transplantDisconnect
    have e1 : (h.get x).getParent = .ok Q := by rw [getParent_live hl, hi.get]; exact congrArg _ hp
    have e2 : (h.get x).nextSibling = .ok (nx x) := by rw [nextSibling_live hl, hi.get]
    simp [nbrOf_live hl, M.read, e1, e2, hi.prevSibling hx hv, hc]
  obtain ⟨h2, hrw, hlen2, hget2⟩ := rewriteParents_eq (P := P) (l := x) (f := x) (C := [x])
    (by simp) (by simpa using Ne.symm hxP) (h := h1) (fuel := h1.loopFuel) rfl rfl
    (by unfold loopFuel; simp) (by simpa using hi1.live hx1) (by simp)
  refine ⟨h2, ⟨by rw [hlen2, hi1.len], fun y => ?_⟩, fun prev next => ?_⟩
  · rw [hget2 y, hi1.get y]
    by_cases e : y = x <;> simp [e, upd]
  · unfold Hier.transplant
    simp only [M.run_bind, M.read, hcyc]
    simp only [Bool.false_eq_true, if_false, M.run_bind, hd, M.read, hrw]
    cases transplantConnect x x P prev next h2 <;> rfl

end Is

/-- The ancestors check reads parents only. -/
theorem cyclic_raw {s : Shape} {h : Hier} (hv : s.Valid) (hlen : s.size ≤ h.nbrs.length)
    (hr : ∀ y, s.alive y = true → h.live y ∧ (h.get y).parent = s.parent y) {x P : Nat} (hx : h.live x) (hP : s.alive P = true) (hcyc : ¬ AncOrSelf s.parent x P) :
    wouldMakeCyclicLinks h x x P = .ok false := by
  obtain ⟨l, hpath⟩ := UpPath.exists_of_rooted (hv.rooted P)
  unfold wouldMakeCyclicLinks
  simp only [neighbors_live hx, expect_some, if_true, Ancestors.withStart]
  rw [(isAlive_iff h P).2 (hr P hP).1]
  simp only [Bool.not_true, Bool.false_eq_true, if_false]
  rw [ancestorsMeet_eq hpath (fun y hy => hr y ((hpath.mem_iff.1 hy).alive hv hP))]
  · simp [hpath.mem_iff, hcyc]
  · have := hv.path_length hpath hP
    unfold loopFuel; omega


/-- `insert(z, NextSiblingOf(p))` of a root `z`, `p` being a last child by its own record. -/
theorem Is.appendRoot {h : Hier} {n : Nat} {pa pc nx fi : Nat → Option Nat} (hi : Is h n pa pc nx fi) {P p z c vp vP vc : Nat}
    (hzp : z ≠ p) (hzP : z ≠ P) (hzc : c ≠ z)
    (hpz : pa z = none) (hcz : pc z = some z) (hnz : nx z = none) (hpp : pa p = some P) (hcp : pc p = some vp) (hnp : nx p = none)
    (hcP : pc P = some vP) (hfP : fi P = some c) (hcc : pc c = some vc) (hcyc : wouldMakeCyclicLinks h z z P = .ok false) :
    ∃ h', Hier.insert z (.nextSiblingOf p) h = .ok (.ok ()) h' ∧
      Is h' n (upd pa z (some P)) (upd (upd pc z (some p)) c (some z)) (upd nx p (some z)) fi := by
  obtain ⟨h2, hi2, hrun⟩ := hi.transplant (P := P) hcz hcz hpz hcyc hzP (h1 := h) (by rw [hnz]; exact connect_none h) hi hcz
  obtain ⟨h3, hc3, hi3⟩ := hi2.pab P (a := p) (b := z) (Ne.symm hzp) hcp hcz
  obtain ⟨h4, hc4, hi4⟩ := hi3.paE (p := P) (a := z) (c := c) (va := p) (vp := vP) (vc := vc) (Ne.symm hzP) (by simp [upd]) (by simp [upd, Ne.symm hzP, hcP]) hfP
    (by simp [upd, hzc, hcc])
  refine ⟨h4, ?_, hi4.cong ?_ (fun _ => rfl) ?_ (fun _ => rfl)⟩
  · have e1 : (h.get p).getParent = .ok (some P) := by rw [getParent_live (hi.live hcp), hi.get]; exact congrArg _ hpp
    have e2 : (h.get p).nextSibling = .ok none := by rw [nextSibling_live (hi.live hcp), hi.get]; exact congrArg _ hnp
    have e3 : h.rangeSingle z = .ok (z, z) := by unfold rangeSingle; rw [(isAlive_iff h z).2 (hi.live hcz)]; rfl
    have e4 : transplantConnect z z P (some p) none h2 = .ok () h4 := by
      unfold transplantConnect
      rw [if_pos (by simp [Ne.symm hzp]), if_pos (by simp), M.run_bind, hc3]; exact hc4
    simp [Hier.insert, insertAfter, hzp, nbrOf_live (hi.live hcp), M.read, e1, e2, e3, hrun, e4]
  · intro w; simp only [upd]; by_cases h1 : w = z <;> by_cases h2 : w = p <;> simp_all
  · intro w; simp only [upd]; by_cases h1 : w = z <;> by_cases h2 : w = p <;> simp_all

/-- `detach(z)` of a last child. -/
theorem Is.detachLast {h : Hier} {n : Nat} {pa pc nx fi : Nat → Option Nat} (hi : Is h n pa pc nx fi) {P p z c vp vP vc : Nat}
    (hzp : z ≠ p) (hpP : p ≠ P) (hzc : c ≠ z) 
    (hpz : pa z = some P) (hcz : pc z = some p) (hnz : nx z = none) (hpp : pa p = some P) (hcp : pc p = some vp) (hnp : nx p = some z)
    (hcP : pc P = some vP) (hfP : fi P = some c) (hcc : pc c = some vc) :
    ∃ h', Hier.detach z h = .ok () h' ∧
      Is h' n (upd pa z none) (upd (upd pc c (some p)) z (some z)) (upd nx p none) fi := by
  obtain ⟨h1, hc1, hi1⟩ := hi.paE (p := P) (a := p) (c := c) (Ne.symm hpP) hcp hcP hfP hcc
  obtain ⟨h', hd, hi'⟩ := hi.detach hcz hcp hpz (by rw [hnp, hnz]; exact hc1) hi1 (w := p) (by simp [upd, Ne.symm hzc, hcz])
  refine ⟨h', hd, hi'.cong ?_ (fun _ => rfl) ?_ (fun _ => rfl)⟩
  · intro w; simp only [upd]; by_cases h1 : w = z <;> by_cases h2 : w = p <;> simp_all
  · intro w; simp only [upd]; by_cases h1 : w = z <;> by_cases h2 : w = p <;> simp_all


/-- `insert(x, PreviousSiblingOf(z))`, both `x` and `z` pointing back to `p`, which points to `z`. -/
theorem Is.tuck {h : Hier} {n : Nat} {pa pc nx fi : Nat → Option Nat} (hi : Is h n pa pc nx fi) {P p x z c vp vP vc : Nat}
    (hzp : z ≠ p) (hxp : x ≠ p) (hxz : x ≠ z) (hpP : p ≠ P) (hxP : x ≠ P) (hzc : c ≠ z) (hxc : c ≠ x)
    (hpz : pa z = some P) (hpx : pa x = some P) (hcx : pc x = some p) (hcz : pc z = some p) (hnx : nx x = none)
    (hpp : pa p = some P) (hcp : pc p = some vp) (hnp : nx p = some z)
    (hcP : pc P = some vP) (hfP : fi P = some c) (hcc : pc c = some vc) (hcyc : wouldMakeCyclicLinks h x x P = .ok false) :
    ∃ h', Hier.insert x (.previousSiblingOf z) h = .ok (.ok ()) h' ∧
      Is h' n pa (upd (upd pc c (some p)) z (some x)) (upd (upd nx p (some x)) x (some z)) fi := by
  obtain ⟨h1, hc1, hi1⟩ := hi.paE (p := P) (a := p) (c := c) (Ne.symm hpP) hcp hcP hfP hcc
  obtain ⟨vp', hcp'⟩ : ∃ v, (upd pc c (some p)) p = some v := by
    by_cases e : p = c
    · exact ⟨_, by simp [upd, e]; rfl⟩
    · exact ⟨_, by simp [upd, e, hcp]; rfl⟩
  have hcx' : (upd pc c (some p)) x = some p := by simp [upd, Ne.symm hxc, hcx]
  have hcz' : (upd pc c (some p)) z = some p := by simp [upd, Ne.symm hzc, hcz]
  obtain ⟨h2, hi2, hrun⟩ := hi.transplant (P := P) hcx hcp hpx hcyc hxP (h1 := h1) (by rw [hnp, hnx]; exact hc1) hi1 hcx'
  obtain ⟨h3, hc3, hi3⟩ := hi2.pab P (a := p) (b := x) (Ne.symm hxp) hcp' hcx'
  obtain ⟨h4, hc4, hi4⟩ := hi3.pab P (a := x) (b := z) (va := p) (vb := p) hxz (by simp [upd]) (by simp only [upd, if_neg (Ne.symm hxz)]; exact hcz')
  refine ⟨h4, ?_, hi4.cong ?_ ?_ ?_ (fun _ => rfl)⟩
  · have hzl := hi.live hcz
    have e1 : (h.get z).getParent = .ok (some P) := by rw [getParent_live hzl, hi.get]; exact congrArg _ hpz
    have e2 : (h.get z).prevSibling h = .ok (some p) := by rw [hi.prevSibling hcz hcp, hnp]; rfl
    have e3 : h.rangeSingle x = .ok (x, x) := by unfold rangeSingle; rw [(isAlive_iff h x).2 (hi.live hcx)]; rfl
    have e4 : transplantConnect x x P (some p) (some z) h2 = .ok () h4 := by
      unfold transplantConnect
      rw [if_pos (by simp [Ne.symm hxp]), if_pos (by simp [Ne.symm hxz]), M.run_bind, hc3]; exact hc4
    simp [Hier.insert, insertBefore, hxz, nbrOf_live hzl, M.read, e1, e2, e3, hrun, e4]
  · intro w; simp only [upd]; by_cases h1 : w = z <;> by_cases h2 : w = p <;> by_cases h3 : w = x <;> simp_all
  · intro w; simp only [upd]; by_cases h1 : w = z <;> by_cases h3 : w = x <;> by_cases h4 : w = c <;> simp_all
  · intro w; simp only [upd]; by_cases h1 : w = z <;> by_cases h2 : w = p <;> by_cases h3 : w = x <;> simp_all

/-- `insert(x, FirstChildOf(P))`, `x` being linked before the first child `y` of `P` already. -/
theorem Is.pull {h : Hier} {n : Nat} {pa pc nx fi : Nat → Option Nat} (hi : Is h n pa pc nx fi) {P x y l vP vl : Nat}
    (hxy : x ≠ y) (hxP : x ≠ P) (hyP : y ≠ P) (hpx : pa x = some P) (hpy : pa y = some P) (hcx : pc x = some l) (hcy : pc y = some x)
    (hnx : nx x = some y) (hnl : nx l = none) (hcl : pc l = some vl)
    (hcP : pc P = some vP) (hfP : fi P = some y) (hcyc : wouldMakeCyclicLinks h x x P = .ok false) :
    ∃ h', Hier.insert x (.firstChildOf P) h = .ok (.ok ()) h' ∧ Is h' n pa (upd pc x (some x)) nx (upd fi P (some x)) := by
  obtain ⟨h1, hc1, hi1⟩ := hi.pbE (p := P) (b := y) (c := y) (l := x) (Ne.symm hyP) hcP hcy hfP hcy
  have hcx' : (upd pc y (some x)) x = some l := by simp [upd, hxy, hcx]
  have hcy' : (upd pc y (some x)) y = some x := by simp [upd]
  have hcP' : (upd pc y (some x)) P = some vP := by simp [upd, Ne.symm hyP, hcP]
  obtain ⟨h2, hi2, hrun⟩ := hi.transplant (P := P) hcx hcl hpx hcyc hxP (h1 := h1) (by rw [hnl, hnx]; exact hc1) hi1 hcx'
  obtain ⟨h3, hc3, hi3⟩ := hi2.pbE (p := P) (b := x) (c := y) (l := x) (Ne.symm hxP) hcP' hcx' (by simp [upd]) hcy'
  obtain ⟨h4, hc4, hi4⟩ := hi3.pab P (a := x) (b := y) (va := x) (vb := x) hxy (by simp [upd]) (by simp only [upd, if_neg (Ne.symm hxy)]; simp)
  refine ⟨h4, ?_, hi4.cong ?_ ?_ ?_ ?_⟩
  · have hPl := hi.live hcP
    have e1 : (h.get P).firstChild = .ok (some y) := by rw [firstChild_live hPl, hi.get]; exact congrArg _ hfP
    have e3 : h.rangeSingle x = .ok (x, x) := by unfold rangeSingle; rw [(isAlive_iff h x).2 (hi.live hcx)]; rfl
    have e4 : transplantConnect x x P none (some y) h2 = .ok () h4 := by
      unfold transplantConnect
      rw [if_pos (by simp), if_pos (by simp [Ne.symm hxy]), M.run_bind, hc3]; exact hc4
    simp [Hier.insert, prependChild, nbrOf_live hPl, M.read, e1, e3, hrun, e4]
  · intro w; simp only [upd]; by_cases h1 : w = y <;> by_cases h3 : w = x <;> simp_all
  · intro w; simp only [upd]; by_cases h1 : w = y <;> by_cases h3 : w = x <;> simp_all
  · intro w; simp only [upd]; by_cases h3 : w = x <;> simp_all
  · intro w; simp only [upd]; by_cases h3 : w = P <;> simp_all

end Treena
