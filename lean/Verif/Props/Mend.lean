import Verif.Proof.Mend
import Verif.Proof.Laws
import Verif.Props.Damage
import Verif.Props.Laws
import Verif.Spec.Mend
import Verif.Props.SampleRun
/-!
# C85: the damage of an in-place `insert` can be repaired through the public interface
-/
set_option autoImplicit false

namespace Treena
open Shape Hier
variable {T : Type} {f : Forest T} {s : Shape}

theorem restored_of_get {g : Forest T} (hd : ∀ z, g.getData z = f.getData z) (hg : ∀ w, g.hier.get w = f.hier.get w) : Restored f g := by
  have hN : g.hier.neighbors = f.hier.neighbors := funext fun w => by rw [neighbors_eq, neighbors_eq, hg]
  have hn : ∀ z, g.nbr z = f.nbr z := fun z => by unfold Forest.nbr; rw [hN]
  have hp : ∀ nb : Neighbors, nb.prevSibling g.hier = nb.prevSibling f.hier := fun nb => by unfold Neighbors.prevSibling; rw [hN]
  have hfl : ∀ nb : Neighbors, nb.lastChild g.hier = nb.lastChild f.hier := fun nb => by
    unfold Neighbors.lastChild Neighbors.firstLastChild; rw [hN]
  refine ⟨fun z => ?_, hd, fun z => ?_, fun z => ?_, fun z => ?_, fun z => ?_, fun z => ?_⟩
  · rw [← getData_isSome_isAlive, ← getData_isSome_isAlive, hd]
  · unfold Forest.parentId; rw [hn]
  · unfold Forest.firstChildId; rw [hn]
  · unfold Forest.lastChildId; rw [hn]; simp only [hfl]
  · unfold Forest.nextSiblingId; rw [hn]
  · unfold Forest.prevSiblingId; rw [hn]; simp only [hp]

/-- A new root, removed at once. -/
theorem scratch_removed (hm : Models f s) {cap : Nat} (hcap : s.size < cap) (v : T) :
    ∃ f0 g, Forest.createRoot cap v f = .ok s.size f0 ∧ Models f0 s.addRoot ∧ Forest.remove s.size f0 = .ok () g ∧ Restored f g ∧ Consistent g := by
  obtain ⟨f0, h1, hm0, hd0⟩ := createRoot_models hm hcap v
  obtain ⟨g, h2, hmg, hdg⟩ := remove_char hm0 s.size
  have hv := hm.valid
  have hdead : s.alive s.size = false := by
    cases h : s.alive s.size with
    | false => rfl
    | true => exact absurd (hv.alive_lt _ h) (Nat.lt_irrefl _)
  have hb : ∀ w, below s.addRoot s.size w = true ↔ w = s.size := fun w => by
    rw [below_iff]
    constructor
    · intro h
      cases h with
      | refl => rfl
      | @step _ p hp h' =>
        exfalso
        have : s.alive s.size = true := by
          have hpa := (hv.parent_alive w p hp).2
          exact AncOrSelf.alive (s := s) hv h' hpa
        rw [hdead] at this; cases this
    · rintro rfl; exact .refl
  refine (fun key : Restored f g => ?_) (restored_of_get (fun z => ?_) fun w => ?_)
  · exact ⟨f0, g, h1, hm0, h2, key, ⟨_, hmg⟩⟩
  · rw [hdg]
    split
    · rename_i e
      have e' := (hb z).1 e
      subst e'
      have := hm.dataAlive s.size
      rw [hdead] at this
      cases hh : f.getData s.size with
      | none => rfl
      | some d => rw [hh] at this; cases this
    · rename_i e
      rw [hd0, if_neg fun h => e ((hb z).2 h)]
  · rw [hmg.agrees.2, hm.agrees.2]
    have hb' : ∀ w, below s.addRoot s.size w = decide (w = s.size) := fun w => by
      rw [Bool.eq_iff_iff, hb, decide_eq_true_iff]
    have hpz : s.parent s.size = none := by
      cases h : s.parent s.size with
      | none => rfl
      | some p => rw [(hv.parent_alive _ _ h).1] at hdead; cases hdead
    have hkz : s.kids s.size = [] := by
      cases h : s.kids s.size with
      | nil => rfl
      | cons y l =>
        have := (hv.parent_alive y s.size ((hv.mem_kids y s.size).1 (by rw [h]; simp))).2
        rw [hdead] at this; cases this
    have e : s.addRoot.kill (below s.addRoot s.size) = { s with size := s.size + 1 } := by
      refine Shape.ext' rfl (fun y => ?_) (fun y => ?_) (fun q => ?_)
      · show (upd s.alive s.size true y && !below s.addRoot s.size y) = s.alive y
        rw [hb']; unfold upd
        by_cases h : y = s.size
        · simp [h, hdead]
        · simp [h]
      · show (if below s.addRoot s.size y = true then none else s.parent y) = s.parent y
        rw [hb']
        by_cases h : y = s.size
        · simp [h, hpz]
        · simp [h]
      · show (if below s.addRoot s.size q = true then [] else (s.kids q).filter _) = s.kids q
        rw [hb']
        by_cases h : q = s.size
        · simp [h, hkz]
        · rw [if_neg (by simpa using h), List.filter_eq_self]
          intro y hy
          rw [hb']
          have : y ≠ s.size := fun e => by rw [e] at hy; rw [hv.kid_alive hy] at hdead; cases hdead
          simp [this]
    rw [e]; rfl

/-- **C85**, the five kinds of requests that leave no lasting damage: detach the node and make the same request again.  The result is the
very forest one had before. -/
theorem C85_detach_and_repeat (hm : Models f s) {x : Nat} {d : InsertAs} (hi : InPlace f x d) (hl : ¬ Lasting f x d) :
    ∃ f1 f2, ((Forest.insert x d f = .ok (.ok ()) f1) ∨ ∃ msg, Forest.insert x d f = .fail (.panic msg) f1) ∧
      Forest.detach x f1 = .ok () f2 ∧ Forest.insert x d f2 = .ok (.ok ()) f := by
  obtain ⟨ret, first, last, next, prev, hs⟩ := (C84_complete hm).1 hi
  obtain ⟨f1, h1, hiff⟩ := C84_detach_repairs hm hs
  obtain ⟨f2, h2, h3⟩ := hiff.2 hl
  obtain ⟨f2', h4, h5⟩ := C43_detach_reinsert hm ((inPlace_iff hm).1 hi).1
  rw [h3] at h4; cases h4
  exact ⟨f1, f2, h1, h2, h5⟩

/-- Making a root in an arena with one record overwritten. -/
theorem Is.createRoot {h : Hier} {n cap : Nat} {pa pc nx fi : Nat → Option Nat} (hi : Is h n pa pc nx fi) (hcap : n < cap)
    (hp : pa n = none) (hx : nx n = none) (hf : fi n = none) :
    ∃ h', Hier.createRoot cap h = .ok n h' ∧ Is h' (n + 1) pa (upd pc n (some n)) nx fi := by
  refine ⟨_, by unfold Hier.createRoot fromUsize; rw [hi.len, if_pos hcap], by simp [hi.len], fun w => ?_⟩
  unfold Hier.get
  by_cases e : w = n
  · subst e
    rw [List.getElem?_append_right (by rw [hi.len])]
    simp [hi.len, upd, hp, hx, hf, Neighbors.newRoot]
  · have := hi.get w
    unfold Hier.get at this
    by_cases hw : w < n
    · rw [List.getElem?_append_left (by rw [hi.len]; exact hw), this]; simp [upd, e]
    · rw [List.getElem?_eq_none (by simp [hi.len]; omega)]
      rw [List.getElem?_eq_none (by rw [hi.len]; omega)] at this
      rw [this]; simp [upd, e]

theorem createRoot_run {cap : Nat} {v : T} {h : Hier} {n : Nat} {g : Forest T} (hr : Hier.createRoot cap g.hier = .ok n h) (hd : g.data.length = n) :
    Forest.createRoot cap v g = .ok n { hier := h, data := g.data ++ [some v] } := by
  unfold Forest.createRoot
  simp [onHier_ok hr, M.read, hd, Forest.pushData]

theorem forest_insert_of_hier {h : Hier} {x : Nat} {d : InsertAs} {g : Forest T} (hr : Hier.insert x d g.hier = .ok (.ok ()) h) :
    Forest.insert x d g = .ok (.ok ()) { g with hier := h } := onHier_ok hr

theorem fresh_fields (hm : Models f s) : (f.hier.get s.size) = Neighbors.removed := by
  unfold Hier.get; rw [List.getElem?_eq_none (by rw [hm.agrees.1])]; rfl

theorem some_prevCyc {h : Hier} {w : Nat} (hl : h.live w) : ∃ v, (h.get w).prevCyc = some v := live_iff_prevCyc.1 hl

theorem mend_last_shape (hm : Models f s) {cap : Nat} (hcap : s.size < cap) (v : T) {x P p : Nat} {A : List Nat} (hk : s.kids P = A ++ [p, x]) :
    ∃ f1 g0 g1 g2 g3 g, Forest.insert x (.lastChildOf P) f = .ok (.ok ()) f1 ∧ Forest.createRoot cap v f1 = .ok s.size g0 ∧
      Forest.insert s.size (.nextSiblingOf p) g0 = .ok (.ok ()) g1 ∧ Forest.insert x (.previousSiblingOf s.size) g1 = .ok (.ok ()) g2 ∧
      Forest.detach s.size g2 = .ok () g3 ∧ Forest.remove s.size g3 = .ok () g ∧ Restored f g ∧ Consistent g := by
  have hv := hm.valid
  have hk' : s.kids P = (A ++ [p]) ++ x :: [] := by rw [hk]; simp
  have hmid := hm.mid hk'
  have hgx := mid_get hm hk'
  have hgp := mid_get hm (A := A) (x := p) (B := [x]) hk
  have hnm := hv.mid_not_mem hk'
  have hpx : p ≠ x := fun e => hnm.1 (by simp [e])
  have hpP : p ≠ P := hmid.ne p (by simp)
  have hxP : x ≠ P := hmid.ne x (by simp)
  obtain ⟨c, hc0⟩ : ∃ c, (A ++ [p]).head? = some c := by cases A <;> exact ⟨_, rfl⟩
  have hcm : c ∈ A ++ [p] := List.mem_of_head? hc0
  have hcx : c ≠ x := fun e => hnm.1 (e ▸ hcm)
  have hcP : c ≠ P := hmid.ne c (List.mem_append_left _ hcm)
  have hcl : f.hier.live c := hmid.live c (List.mem_append_left _ hcm)
  have hpl : f.hier.live p := hmid.live p (by simp)
  have hxl : f.hier.live x := hmid.live x (by simp)
  have hPl := hmid.liveP
  have hlt : ∀ {w}, f.hier.live w → w ≠ s.size := fun h e => by have := live_lt h; rw [hm.agrees.1] at this; omega
  have hpar : s.parent x = some P := hv.kid_parent (by rw [hk]; simp)
  obtain ⟨hxa, hPa⟩ := hv.parent_alive _ _ hpar
  have hcc : (f.hier.get c).prevCyc = some x := by
    rw [kid_get hm (P := P) (y := c) (by rw [hk']; exact List.mem_append_left _ hcm), hk', pc_left _ hcm, if_pos hc0]; simp
  have hfresh := fresh_fields hm
  set z := s.size with hz
  set pa := fun w => (f.hier.get w).parent with hpa
  set pc := fun w => (f.hier.get w).prevCyc with hpc
  set nx := fun w => (f.hier.get w).next with hnx
  set fi := fun w => (f.hier.get w).first with hfi
  have hi : Is f.hier z pa pc nx fi := by have := Is.of f.hier; rw [hm.agrees.1] at this; exact this
  have pax : pa x = some P := by show (f.hier.get x).parent = _; rw [hgx]
  have pap : pa p = some P := by show (f.hier.get p).parent = _; rw [hgp]
  have paz : pa z = none := by show (f.hier.get z).parent = _; rw [hfresh]; rfl
  have nxz : nx z = none := by show (f.hier.get z).next = _; rw [hfresh]; rfl
  have fiz : fi z = none := by show (f.hier.get z).first = _; rw [hfresh]; rfl
  have nxp : nx p = some x := by show (f.hier.get p).next = _; rw [hgp]; rfl
  have nxx : nx x = none := by show (f.hier.get x).next = _; rw [hgx]; rfl
  have pcx : pc x = some p := by show (f.hier.get x).prevCyc = _; rw [hgx]; simp
  have fiP : fi P = some c := by show (f.hier.get P).first = _; rw [hmid.first, List.head?_append, hc0]; rfl
  have pcc : pc c = some x := hcc
  obtain ⟨vP, pcP⟩ : ∃ v, pc P = some v := some_prevCyc hPl
  obtain ⟨vp, pcp⟩ : ∃ v, pc p = some v := some_prevCyc hpl
  have hzx := Ne.symm (hlt hxl)
  have hzp := Ne.symm (hlt hpl)
  have hzP := Ne.symm (hlt hPl)
  have hzc := hlt hcl
  -- the damaged forest
  have hi1 : Is (f.hier.put p { f.hier.get p with next := none }) z pa pc (upd nx p none) fi := by
    have e : ({ f.hier.get p with next := none } : Neighbors) = ⟨pa p, pc p, none, fi p⟩ := rfl
    rw [e]
    refine (hi.put pcp _ _ _ _).cong ?_ ?_ (fun _ => rfl) ?_ <;> intro w <;> by_cases h : w = p <;> simp [upd, h]
  have hins := slip_last hm hk
  set d1 := f.hier.put p { f.hier.get p with next := none } with hd1
  clear_value d1
  obtain ⟨e0, he0, hi2⟩ := hi1.createRoot (cap := cap) hcap paz (by simp [upd, hzp, nxz]) fiz
  obtain ⟨e00, he00, hi00⟩ := hi.createRoot (cap := cap) hcap paz nxz fiz
  -- parents and liveness for the check of the ancestors
  have hcyc : ∀ {h : Hier} {pa' pc' nx' fi' : Nat → Option Nat} {y : Nat}, Is h (z + 1) pa' pc' nx' fi' → (∀ w, w ≠ z → pa' w = pa w) →
      (∀ w, w ≠ z → (pc w).isSome = true → (pc' w).isSome = true) → h.live y → ¬ AncOrSelf s.parent y P →
      wouldMakeCyclicLinks h y y P = .ok false := by
    intro h pa' pc' nx' fi' y hI h1 h2 h3 h4
    refine cyclic_raw hv (by rw [hI.len]; omega) (fun w hw => ?_) h3 hPa h4
    have hwl := (hm.agrees.live_iff hv w).2 hw
    have hwz := hlt hwl
    obtain ⟨u, hu⟩ := some_prevCyc hwl
    refine ⟨?_, ?_⟩
    · have h5 := h2 w hwz (by show (f.hier.get w).prevCyc.isSome = true; rw [hu]; rfl)
      obtain ⟨u', hu'⟩ := Option.isSome_iff_exists.1 h5
      exact hI.live hu'
    · rw [hI.get]
      show pa' w = _
      rw [h1 w hwz]
      show (f.hier.get w).parent = _
      rw [hm.agrees.2, entry_alive hw]; rfl
  have hnz : ¬ AncOrSelf s.parent z P := fun h => by
    have := AncOrSelf.alive hv h hPa
    have := hv.alive_lt _ this
    omega
  have hnx' : ¬ AncOrSelf s.parent x P := (hv.rooted x).acyclic hpar
  -- `z` after `p`
  obtain ⟨e1, he1, hi3⟩ := hi2.appendRoot (P := P) (p := p) (z := z) (c := c) (vp := vp) (vP := vP) (vc := x) hzp hzP hzc
    paz (by simp [upd]) (by simp [upd, hzp, nxz]) pap (by simp [upd, Ne.symm hzp, pcp]) (by simp [upd])
    (by simp [upd, Ne.symm hzP, pcP]) fiP (by simp [upd, hzc, pcc])
    (hcyc hi2 (fun _ _ => rfl) (fun w hw h => by simp [upd, hw, h]) (hi2.live (w := z) (v := z) (by simp [upd])) hnz)
  -- `x` before `z`
  obtain ⟨vp', pcp'⟩ : ∃ v, (upd (upd (upd pc z (some z)) z (some p)) c (some z)) p = some v := by
    by_cases e : p = c
    · exact ⟨z, by simp [upd, e]⟩
    · exact ⟨vp, by simp [upd, e, Ne.symm hzp, pcp]⟩
  have pcx3 : (upd (upd (upd pc z (some z)) z (some p)) c (some z)) x = some p := by simp [upd, Ne.symm hcx, Ne.symm hzx, pcx]
  obtain ⟨e2, he2, hi4⟩ := hi3.tuck (P := P) (p := p) (x := x) (z := z) (c := c) (vP := vP) (vc := z) hzp (Ne.symm hpx) (Ne.symm hzx) hpP hxP hzc hcx
    (by simp [upd]) (by simp [upd, Ne.symm hzx, pax]) pcx3 (by simp [upd, Ne.symm hzc]) (by simp [upd, Ne.symm hpx, nxx])
    (by simp [upd, Ne.symm hzp, pap]) pcp' (by simp [upd]) (by simp [upd, Ne.symm hcP, Ne.symm hzP, pcP]) fiP (by simp [upd])
    (hcyc hi3 (fun w hw => by simp [upd, hw]) (fun w hw h => by
      by_cases e : w = c
      · simp [upd, e]
      · simpa [upd, hw, e] using h) (hi3.live pcx3) hnx')
  -- `z` out
  obtain ⟨e3, he3, hi5⟩ := hi4.detachLast (P := P) (p := x) (z := z) (c := c) (vp := p) (vP := vP) (vc := p) hzx hxP hzc
    (by simp [upd]) (by simp [upd]) (by simp [upd, hzp, hzx, nxz]) (by simp [upd, Ne.symm hzx, pax])
    (by simp [upd, Ne.symm hzx, Ne.symm hcx, pcx]) (by simp [upd]) (by simp [upd, Ne.symm hcP, Ne.symm hzP, pcP]) fiP (by simp [upd, hzc])
  have heq : e3 = e00 := by
    refine hi00.ext hi5 ?_ ?_ ?_ (fun _ => rfl)
    · intro w; by_cases h1 : w = z <;> simp [upd, h1, paz]
    · intro w; by_cases h1 : w = z <;> by_cases h2 : w = c <;> simp_all [upd]
    · intro w; by_cases h1 : w = p <;> by_cases h2 : w = x <;> simp_all [upd]
  subst heq
  obtain ⟨f0, g, hr1, _, hr2, hr3, hr4⟩ := scratch_removed hm hcap v
  have hr1' := createRoot_run (v := v) (g := f) he00 hm.dataLen
  rw [hr1] at hr1'
  cases hr1'
  refine ⟨_, _, _, _, _, g, hins, createRoot_run (g := { f with hier := d1 }) he0 hm.dataLen, forest_insert_of_hier (g := { hier := e0, data := f.data ++ [some v] }) he1,
    forest_insert_of_hier (g := { hier := e1, data := f.data ++ [some v] }) he2,
    forest_detach_of_hier (f := { hier := e2, data := f.data ++ [some v] }) he3, hr2, hr3, hr4⟩


theorem mend_before_first_shape (hm : Models f s) {cap : Nat} (hcap : s.size < cap) (v : T) {x P y l : Nat} {B : List Nat}
    (hk : s.kids P = x :: y :: B) (hl : (s.kids P).getLast? = some l) :
    ∃ f1 g0 g1 g2 g3 g, Forest.insert x (.previousSiblingOf y) f = .ok (.ok ()) f1 ∧ Forest.createRoot cap v f1 = .ok s.size g0 ∧
      Forest.insert x (.firstChildOf P) g0 = .ok (.ok ()) g1 ∧ Forest.insert s.size (.nextSiblingOf l) g1 = .ok (.ok ()) g2 ∧
      Forest.detach s.size g2 = .ok () g3 ∧ Forest.remove s.size g3 = .ok () g ∧ Restored f g ∧ Consistent g := by
  have hv := hm.valid
  have hk' : s.kids P = [] ++ x :: (y :: B) := hk
  have hmid := hm.mid hk'
  have hgx := mid_get hm hk'
  have hyx : y ≠ x := fun e => by have := hmid.nodup; simp [e] at this
  have hxP : x ≠ P := hmid.ne x (by simp)
  have hyP : y ≠ P := hmid.ne y (by simp)
  have hlm : l ∈ y :: B := by
    rw [hk, List.getLast?_cons_cons] at hl; exact List.mem_of_getLast? hl
  have hlm' : l ∈ ([] : List Nat) ++ x :: y :: B := by simp only [List.nil_append]; exact List.mem_cons_of_mem _ hlm
  have hlx : l ≠ x := fun e => (hv.mid_not_mem hk').2 (e ▸ hlm)
  have hlP : l ≠ P := hmid.ne l hlm'
  have hll : f.hier.live l := hmid.live l hlm'
  have hyl : f.hier.live y := hmid.live y (by simp)
  have hxl : f.hier.live x := hmid.live x (by simp)
  have hPl := hmid.liveP
  have hlt : ∀ {w}, f.hier.live w → w ≠ s.size := fun h e => by have := live_lt h; rw [hm.agrees.1] at this; omega
  have hpar : s.parent x = some P := hv.kid_parent (by rw [hk]; simp)
  obtain ⟨hxa, hPa⟩ := hv.parent_alive _ _ hpar
  have hyc : (f.hier.get y).prevCyc = some x := by
    have e : x :: y :: B = [x] ++ (y :: B) := rfl
    rw [kid_get hm (P := P) (y := y) (by rw [hk]; simp), hk, e, pc_right _ (by simpa using hyx) (by simp)]; simp
  have hln := last_next hm hl
  have hlk : f.hier.get l = ⟨some P, Treena.pc (s.kids P) l, Treena.nx (s.kids P) l, (s.kids l).head?⟩ := kid_get hm (by rw [hk]; exact List.mem_cons_of_mem _ hlm)
  have hyk := kid_get hm (P := P) (y := y) (by rw [hk]; simp)
  have hfresh := fresh_fields hm
  set z := s.size with hz
  set pa := fun w => (f.hier.get w).parent with hpa
  set pc := fun w => (f.hier.get w).prevCyc with hpc
  set nx := fun w => (f.hier.get w).next with hnx
  set fi := fun w => (f.hier.get w).first with hfi
  have hi : Is f.hier z pa pc nx fi := by have := Is.of f.hier; rw [hm.agrees.1] at this; exact this
  have pax : pa x = some P := by show (f.hier.get x).parent = _; rw [hgx]
  have pay : pa y = some P := by show (f.hier.get y).parent = _; rw [hyk]
  have pal : pa l = some P := by show (f.hier.get l).parent = _; rw [hlk]
  have paz : pa z = none := by show (f.hier.get z).parent = _; rw [hfresh]; rfl
  have nxz : nx z = none := by show (f.hier.get z).next = _; rw [hfresh]; rfl
  have fiz : fi z = none := by show (f.hier.get z).first = _; rw [hfresh]; rfl
  have nxl : nx l = none := hln
  have nxx : nx x = some y := by show (f.hier.get x).next = _; rw [hgx]; rfl
  have pcx : pc x = some l := by
    show (f.hier.get x).prevCyc = _; rw [hgx]
    rw [hk] at hl
    simpa using hl
  have pcy : pc y = some x := hyc
  have fiP : fi P = some x := by show (f.hier.get P).first = _; rw [hmid.first]; rfl
  obtain ⟨vP, pcP⟩ : ∃ v, pc P = some v := some_prevCyc hPl
  obtain ⟨vl, pcl⟩ : ∃ v, pc l = some v := some_prevCyc hll
  have hzx := Ne.symm (hlt hxl)
  have hzy := Ne.symm (hlt hyl)
  have hzP := Ne.symm (hlt hPl)
  have hzl := Ne.symm (hlt hll)
  -- the damaged forest
  have hi1 : Is (f.hier.put P { f.hier.get P with first := some y }) z pa pc nx (upd fi P (some y)) := by
    have e : ({ f.hier.get P with first := some y } : Neighbors) = ⟨pa P, pc P, nx P, some y⟩ := rfl
    rw [e]
    refine (hi.put pcP _ _ _ _).cong ?_ ?_ ?_ (fun _ => rfl) <;> intro w <;> by_cases h : w = P <;> simp [upd, h]
  have hins := slip_before_first hm hk
  set d1 := f.hier.put P { f.hier.get P with first := some y } with hd1
  clear_value d1
  obtain ⟨e0, he0, hi2⟩ := hi1.createRoot (cap := cap) hcap paz nxz (by simp [upd, hzP, fiz])
  obtain ⟨e00, he00, hi00⟩ := hi.createRoot (cap := cap) hcap paz nxz fiz
  -- parents and liveness for the check of the ancestors
  have hcyc : ∀ {h : Hier} {pa' pc' nx' fi' : Nat → Option Nat} {y : Nat}, Is h (z + 1) pa' pc' nx' fi' → (∀ w, w ≠ z → pa' w = pa w) →
      (∀ w, w ≠ z → (pc w).isSome = true → (pc' w).isSome = true) → h.live y → ¬ AncOrSelf s.parent y P →
      wouldMakeCyclicLinks h y y P = .ok false := by
    intro h pa' pc' nx' fi' y hI h1 h2 h3 h4
    refine cyclic_raw hv (by rw [hI.len]; omega) (fun w hw => ?_) h3 hPa h4
    have hwl := (hm.agrees.live_iff hv w).2 hw
    have hwz := hlt hwl
    obtain ⟨u, hu⟩ := some_prevCyc hwl
    refine ⟨?_, ?_⟩
    · have h5 := h2 w hwz (by show (f.hier.get w).prevCyc.isSome = true; rw [hu]; rfl)
      obtain ⟨u', hu'⟩ := Option.isSome_iff_exists.1 h5
      exact hI.live hu'
    · rw [hI.get]
      show pa' w = _
      rw [h1 w hwz]
      show (f.hier.get w).parent = _
      rw [hm.agrees.2, entry_alive hw]; rfl
  have hnz : ¬ AncOrSelf s.parent z P := fun h => by
    have := AncOrSelf.alive hv h hPa
    have := hv.alive_lt _ this
    omega
  have hnx' : ¬ AncOrSelf s.parent x P := (hv.rooted x).acyclic hpar
  -- `x` first
  have pcx2 : (upd pc z (some z)) x = some l := by simp [upd, Ne.symm hzx, pcx]
  obtain ⟨e1, he1, hi3⟩ := hi2.pull (P := P) (x := x) (y := y) (l := l) (vP := vP) (vl := vl) (Ne.symm hyx) hxP hyP pax pay pcx2
    (by simp [upd, Ne.symm hzy, pcy]) nxx nxl (by simp [upd, Ne.symm hzl, pcl]) (by simp [upd, Ne.symm hzP, pcP]) (by simp [upd])
    (hcyc hi2 (fun _ _ => rfl) (fun w hw h => by simp [upd, hw, h]) (hi2.live pcx2) hnx')
  -- `z` last
  obtain ⟨e2, he2, hi4⟩ := hi3.appendRoot (P := P) (p := l) (z := z) (c := x) (vp := vl) (vP := vP) (vc := x) hzl hzP (Ne.symm hzx)
    paz (by simp [upd, hzx]) nxz pal (by simp [upd, hlx, Ne.symm hzl, pcl]) nxl
    (by simp [upd, Ne.symm hxP, Ne.symm hzP, pcP]) (by simp [upd]) (by simp [upd])
    (hcyc hi3 (fun w hw => rfl) (fun w hw h => by
      by_cases e : w = x
      · simp [upd, e]
      · simpa [upd, hw, e] using h) (hi3.live (w := z) (v := z) (by simp [upd, hzx])) hnz)
  -- `z` out
  obtain ⟨e3, he3, hi5⟩ := hi4.detachLast (P := P) (p := l) (z := z) (c := x) (vp := vl) (vP := vP) (vc := z) hzl hlP (Ne.symm hzx)
    (by simp [upd]) (by simp [upd, hzx]) (by simp [upd, hzl, nxz]) (by simp [upd, Ne.symm hzl, pal])
    (by simp [upd, hlx, Ne.symm hzl, pcl]) (by simp [upd]) (by simp [upd, Ne.symm hxP, Ne.symm hzP, pcP]) (by simp [upd]) (by simp [upd])
  have heq : e3 = e00 := by
    refine hi00.ext hi5 ?_ ?_ ?_ ?_
    · intro w; by_cases h1 : w = z <;> simp [upd, h1, paz]
    · intro w; by_cases h1 : w = z <;> by_cases h2 : w = x <;> simp_all [upd]
    · intro w; by_cases h1 : w = l <;> simp_all [upd]
    · intro w; by_cases h1 : w = P <;> simp_all [upd]
  subst heq
  obtain ⟨f0, g, hr1, _, hr2, hr3, hr4⟩ := scratch_removed hm hcap v
  have hr1' := createRoot_run (v := v) (g := f) he00 hm.dataLen
  rw [hr1] at hr1'
  cases hr1'
  refine ⟨_, _, _, _, _, g, hins, createRoot_run (g := { f with hier := d1 }) he0 hm.dataLen,
    forest_insert_of_hier (g := { hier := e0, data := f.data ++ [some v] }) he1,
    forest_insert_of_hier (g := { hier := e1, data := f.data ++ [some v] }) he2,
    forest_detach_of_hier (f := { hier := e2, data := f.data ++ [some v] }) he3, hr2, hr3, hr4⟩


/-- **C85**, the last child `x` of `P`, not the only one, was requested as the last child of `P`; `p` is its previous sibling.  Make a new
root `z`, insert `z` after `p`, insert `x` before `z`, detach and remove `z`.  All these calls succeed, and afterwards every datum
and every answer is what it was before the damage. -/
theorem C85_mend_last_child (hc : Consistent f) {cap : Nat} (hcap : f.data.length < cap) (v : T) {x P p : Nat}
    (hl : Lasting f x (.lastChildOf P)) (hp : f.prevSiblingId x = .ok (some p)) :
    ∃ f1 z g0 g1 g2 g3 g, Forest.insert x (.lastChildOf P) f = .ok (.ok ()) f1 ∧
      Forest.createRoot cap v f1 = .ok z g0 ∧
      Forest.insert z (.nextSiblingOf p) g0 = .ok (.ok ()) g1 ∧
      Forest.insert x (.previousSiblingOf z) g1 = .ok (.ok ()) g2 ∧
      Forest.detach z g2 = .ok () g3 ∧
      Forest.remove z g3 = .ok () g ∧ Restored f g ∧ Consistent g := by
  obtain ⟨s, hm⟩ := hc
  have hv := hm.valid
  rw [hm.dataLen] at hcap
  obtain ⟨ret, a, b, c, d, hs⟩ := (C84_complete hm (x := x) (d := .lastChildOf P)).1 hl.1
  cases hs with
  | @only _ hk =>
    refine absurd ?_ hl.2
    rw [hm.describes.first P (hv.parent_alive x P (hv.kid_parent (by rw [hk]; simp))).2, hk]; rfl
  | @last _ q A hk =>
    have e : s.prev x = some q := at_iff_prev hv (A := A) (x := q) (y := x) (B := []) (by rw [hk])
    rw [hm.describes.prev x (hv.parent_alive x P (hv.kid_parent (by rw [hk]; simp))).1, e] at hp
    cases hp
    obtain ⟨f1, g0, g1, g2, g3, g, h⟩ := mend_last_shape hm hcap v hk
    exact ⟨f1, _, g0, g1, g2, g3, g, h⟩

/-- **C85**, the first child `x` of `P` was requested before the second child `y`; `l` was the last child.  Make a new root `z`, insert `x` as
the first child of `P`, insert `z` after `l`, detach and remove `z`.  All these calls succeed, and afterwards every datum
and every answer is what it was before the damage. -/
theorem C85_mend_before_second (hc : Consistent f) {cap : Nat} (hcap : f.data.length < cap) (v : T) {x P y l : Nat}
    (hl : Lasting f x (.previousSiblingOf y)) (hP : f.parentId x = .ok (some P)) (hlast : f.lastChildId P = .ok (some l)) :
    ∃ f1 z g0 g1 g2 g3 g, Forest.insert x (.previousSiblingOf y) f = .ok (.ok ()) f1 ∧
      Forest.createRoot cap v f1 = .ok z g0 ∧
      Forest.insert x (.firstChildOf P) g0 = .ok (.ok ()) g1 ∧
      Forest.insert z (.nextSiblingOf l) g1 = .ok (.ok ()) g2 ∧
      Forest.detach z g2 = .ok () g3 ∧
      Forest.remove z g3 = .ok () g ∧ Restored f g ∧ Consistent g := by
  obtain ⟨s, hm⟩ := hc
  have hv := hm.valid
  rw [hm.dataLen] at hcap
  obtain ⟨ret, a, b, c, d, hs⟩ := (C84_complete hm (x := x) (d := .previousSiblingOf y)).1 hl.1
  cases hs with
  | @before Q p _ A B hk =>
    have e : s.prev x = some p := at_iff_prev hv hk
    have h2 := hl.2
    rw [hm.describes.prev x (hv.parent_alive x Q (hv.kid_parent (by rw [hk]; simp))).1, e] at h2
    cases h2
  | @beforeFirst Q _ B hk =>
    have hpar : s.parent x = some Q := hv.kid_parent (by rw [hk]; simp)
    have hal := hv.parent_alive x Q hpar
    rw [hm.describes.parent x hal.1, hpar] at hP
    cases hP
    rw [hm.describes.last P hal.2] at hlast
    obtain ⟨f1, g0, g1, g2, g3, g, h⟩ := mend_before_first_shape hm hcap v hk (Except.ok.inj hlast)
    exact ⟨f1, _, g0, g1, g2, g3, g, h⟩

/-- The three theorems cover all in-place requests. -/
theorem C85_all_kinds (f : Forest T) (x : Nat) (d : InsertAs) (hi : InPlace f x d) :
    ¬ Lasting f x d ∨ (∃ P, d = .lastChildOf P ∧ Lasting f x d) ∨ ∃ y, d = .previousSiblingOf y ∧ Lasting f x d := by
  by_cases h : Lasting f x d
  · cases d with
    | firstChildOf P => exact h.elim
    | lastChildOf P => exact .inr (.inl ⟨P, rfl, h⟩)
    | previousSiblingOf y => exact .inr (.inr ⟨y, rfl, h⟩)
    | nextSiblingOf y => exact h.elim
  · exact .inl h

/-! ### Examples -/

example : Lasting Sample.built 3 (.lastChildOf 0) ∧ Sample.built.prevSiblingId 3 = .ok (some 2) ∧ Sample.built.data.length < 100 :=
  ⟨⟨by decide, by decide⟩, by decide, by decide⟩
example : Lasting Sample.built 1 (.previousSiblingOf 2) ∧ Sample.built.parentId 1 = .ok (some 0) ∧ Sample.built.lastChildId 0 = .ok (some 3) :=
  ⟨⟨by decide, by decide⟩, by decide, by decide⟩
example : InPlace Sample.built 2 (.nextSiblingOf 1) ∧ ¬ Lasting Sample.built 2 (.nextSiblingOf 1) := ⟨by show _ = _; decide, fun h => h⟩

/-! ### The hypotheses can be met

Each example applies the theorem named in its comment to a concrete forest. -/

section
/-- `C85_all_kinds`: node 3, the last child of node 0. -/
example := C85_all_kinds Sample.built 3 (.lastChildOf 0) (show Forest.lastChildId _ _ = _ by decide)

/-- `C85_detach_and_repeat`: node 2 after node 1, where it is. -/
example := C85_detach_and_repeat Sample.models (x := 2) (d := .nextSiblingOf 1) (show Forest.nextSiblingId _ _ = _ by decide) (by simp [Lasting])

/-- `C85_mend_last_child`: node 3, the last child of node 0. -/
example := C85_mend_last_child Sample.consistent (cap := 100) (by decide) 7 (x := 3) (P := 0) (p := 2) ⟨by decide, by decide⟩ (by decide)

/-- `C85_mend_before_second`: node 1, the first child of node 0. -/
example := C85_mend_before_second Sample.consistent (cap := 100) (by decide) 7 (x := 1) (P := 0) (y := 2) (l := 3) ⟨by decide, by decide⟩ (by decide) (by decide)

end

end Treena
