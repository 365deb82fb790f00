import Verif.Proof.StepsInsert
/-! Step counts of `create_insert`, `detach`, `detach_single` and the removals. -/

set_option autoImplicit false

namespace Treena.Steps
open Hier Shape

variable {T : Type} {f : Forest T} {s : Shape}

theorem createInsert_counts (hm : Models f s) {cap : Nat} (hcap : s.size < cap) (d : T)
    {dest : InsertAs} {P : Nat} {l : List Nat} (ha : s.alive dest.place.anchor = true)
    (hpp : s.placeParent dest.place = some P) (hpath : UpPath s.parent P l) :
    Counts (createInsertMomo cap d dest) (Forest.createInsertMomo cap d dest) f (l.length + 4) := by
  obtain ⟨h', hr, hag⟩ := hier_createRoot_agrees hm.agrees hm.valid hcap
  have hP := placeParent_alive hm.valid ha hpp
  have hne : ∀ a, dest.place = .before a ∨ dest.place = .after a → s.size ≠ a := by
    intro a h e
    have : dest.place.anchor = a := by rcases h with h | h <;> rw [h] <;> rfl
    rw [this, ← e, hm.valid.dead_size] at ha; cases ha
  have hnl : s.size ∉ l := fun hmem => by
    have := (hpath.mem_iff.1 hmem).alive hm.valid hP
    rw [hm.valid.dead_size] at this; cases this
  have hc := hierInsert_counts (h := h') hag hm.valid.addRoot (x := s.size) (d := dest) (P := P) (l := l)
    s.addRoot_alive_self (addRoot_alive_of ha) hne hpp hpath
  rw [if_neg hnl] at hc
  obtain ⟨h2, hins, _, _⟩ := insert_agrees (h := h') hag hm.valid.addRoot (x := s.size)
    (d := dest) (P := P) s.addRoot_alive_self (addRoot_alive_of ha) hne hpp
    (ancOrSelf_fresh hm.valid hP) (not_at_fresh hm.valid ha)
  have hval : f.hier.isValid dest.toAnchor = true := by
    have h1 := hm.valid.alive_lt _ ha
    rw [← hm.agrees.1] at h1
    unfold isValid; rw [toAnchor_eq]; simpa using h1
  refine Counts.tick (k := l.length + 3) ?_
  refine Counts.free_bind (a := true) (s' := f) (by simp [M.read, hval]) ?_
  simp only [Bool.not_true, Bool.false_eq_true, if_false]
  refine Counts.free_bind (onHier_ok hr) (Counts.free_bind (a := ()) (s' := ⟨h', f.data ++ [some d]⟩) rfl ?_)
  exact (Counts.onHier (f := ⟨h', f.data ++ [some d]⟩) hc).bind_ok (k' := 0)
    (s' := ⟨h2, f.data ++ [some d]⟩) (a := .ok ()) (onHier_ok hins) (Counts.pure _ _)

/-- A refused `create_insert`: no ID left, an anchor that is no ID of the forest, or the orphan case. -/
theorem createInsert_refused (hm : Models f s) (cap : Nat) (d : T) {dest : InsertAs}
    (hbad : ¬ (s.size < cap ∧ s.alive dest.place.anchor = true ∧ ∃ P, s.placeParent dest.place = some P)) :
    ∃ k, k ≤ 2 ∧ Counts (createInsertMomo cap d dest) (Forest.createInsertMomo cap d dest) f k := by
  by_cases hval : f.hier.isValid dest.toAnchor = true
  swap
  · refine ⟨1, by omega, Counts.tick (k := 0) ?_⟩
    have hval : f.hier.isValid dest.toAnchor = false := by simpa using hval
    refine Counts.free_bind (a := false) (s' := f) (by simp [M.read, hval]) ?_
    exact Counts.panic _ _
  by_cases hcap : s.size < cap
  swap
  · refine ⟨1, by omega, Counts.tick (k := 0) ?_⟩
    refine Counts.free_bind (a := true) (s' := f) (by simp [M.read, hval]) ?_
    exact (Counts.free _ _).bind_fail (onHier_fail (hier_createRoot_full hm.agrees (by omega)))
  obtain ⟨h', hr, hag⟩ := hier_createRoot_agrees hm.agrees hm.valid hcap
  have hlt : dest.place.anchor < s.size := by
    unfold isValid at hval; rw [toAnchor_eq, hm.agrees.1] at hval; simpa using hval
  have hc := hierInsert_other (h := h') hag hm.valid.addRoot (x := s.size) (d := dest) (by
    rintro ⟨_, h1, _, P, h2⟩
    refine hbad ⟨hcap, ?_, P, h2⟩
    simp only [Shape.addRoot, upd] at h1
    rwa [if_neg (by omega)] at h1)
  refine ⟨2, le_refl _, Counts.tick (k := 1) ?_⟩
  refine Counts.free_bind (a := true) (s' := f) (by simp [M.read, hval]) ?_
  simp only [Bool.not_true, Bool.false_eq_true, if_false]
  refine Counts.free_bind (onHier_ok hr) (Counts.free_bind (a := ()) (s' := ⟨h', f.data ++ [some d]⟩) rfl ?_)
  have hc' := Counts.onHier (f := (⟨h', f.data ++ [some d]⟩ : Forest T)) hc
  cases hi : Forest.onHier (Hier.insert s.size dest) (⟨h', f.data ++ [some d]⟩ : Forest T) with
  | ok r g =>
    cases r with
    | ok u => exact hc'.bind_ok (k' := 0) hi (Counts.pure _ _)
    | error e => exact hc'.bind_ok (k' := 0) hi (Counts.panic _ _)
  | fail e g => exact hc'.bind_fail hi

theorem detach_counts (x : Nat) (h : Hier) : Counts (detach x) (Hier.detach x) h 1 := Counts.tick (Counts.free _ _)

/-! ### `detach_single` -/

variable {h : Hier}

theorem rewriteParents_counts {P l f : Nat} {C : List Nat} (hnd : C.Nodup) (hPC : P ∉ C) :
    ∀ {h : Hier} {fuel : Nat}, C.head? = some f → C.getLast? = some l → C.length ≤ fuel →
      (∀ c ∈ C, h.live c) → (∀ c ∈ C, c ≠ l → (h.get c).next = nx C c) →
      Counts (rewriteParents P l fuel (some f)) (Hier.rewriteParents P l fuel (some f)) h C.length := by
  induction C generalizing f with
  | nil => intro h fuel hf; simp at hf
  | cons c C ih =>
    intro h fuel hf hl hfu hlive hnext
    simp at hf; subst hf
    have hcl := hlive c (by simp)
    have hcP : c ≠ P := fun e => hPC (by simp [e])
    match fuel, hfu with
    | fuel + 1, hfu =>
      have hlive' : (h.put c { h.get c with parent := some P }).live c := by
        rw [live_put (live_lt hcl)]; rw [if_pos rfl]; exact hcl
      unfold rewriteParents Hier.rewriteParents
      refine Counts.tick ?_
      simp only [if_neg hcP]
      refine Counts.free_bind (updNbr_live hcl _ _) ?_
      cases C with
      | nil =>
        simp at hl; subst hl
        simp only [if_true]
        exact Counts.pure _ _
      | cons d C' =>
        have hl' : (d :: C').getLast? = some l := by rw [List.getLast?_cons_cons] at hl; exact hl
        rw [List.nodup_cons] at hnd
        have hlmem : l ∈ d :: C' := List.mem_of_getLast? hl'
        have hcl' : c ≠ l := fun e => hnd.1 (e ▸ hlmem)
        have hcn : (h.get c).next = some d := by
          rw [hnext c (by simp) hcl']; simp [nx]
        have hrec := ih hnd.2 (fun hm => hPC (by simp [hm])) (f := d)
          (h := h.put c { h.get c with parent := some P }) (fuel := fuel) rfl hl'
          (by simpa using hfu)
          (by
            intro e he
            rw [live_put (live_lt hcl)]; split
            · exact hcl
            · exact hlive e (by simp at he ⊢; right; exact he))
          (by
            intro e he hel
            rw [get_put (live_lt hcl), if_neg (fun e' : e = c => hnd.1 (e' ▸ he))]
            rw [hnext e (List.mem_cons_of_mem _ he) hel]
            have := nx_right (A := [c]) (d :: C') (y := e) (by simp; exact fun e' => hnd.1 (e' ▸ he))
            simpa using this)
        simp only [if_neg hcl']
        have hg : (h.put c { h.get c with parent := some P }).get c = { h.get c with parent := some P } := by
          rw [get_put (live_lt hcl), if_pos rfl]
        refine Counts.free_bind (nbrOf_live hlive' _) (Counts.free_bind (a := some d)
          (s' := h.put c { h.get c with parent := some P }) ?_ hrec)
        simp only [M.read, nextSibling_live hlive']
        rw [hg]
        simp [hcn]

theorem Counts.bind0 {σ α β : Type} {mc : M (σ × Nat) α} {m : M σ α} {fc : α → M (σ × Nat) β} {f : α → M σ β} {s : σ} {k : Nat}
    (h : Counts mc m s k) (h' : ∀ a s', Counts (fc a) (f a) s' 0) : Counts (mc >>= fc) (m >>= f) s k := by
  cases hr : m s with
  | ok a s' => exact h.bind_ok hr (h' a s')
  | fail e s' => exact h.bind_fail hr

theorem Counts.free0 {σ α β : Type} {m : M σ α} {fc : α → M (σ × Nat) β} {f : α → M σ β} {s : σ}
    (h' : ∀ a s', Counts (fc a) (f a) s' 0) : Counts (Steps.free m >>= fc) (m >>= f) s 0 :=
  (Counts.free m s).bind0 h'

/-- `detach_single` of a node that has no children, or no parent, or does not exist. -/
theorem detachSingle_simple (ha : Agrees h s) (hv : s.Valid) {x : Nat}
    (hs : s.kids x = [] ∨ s.parent x = none) : Counts (detachSingle x) (Hier.detachSingle x) h 1 := by
  refine Counts.tick ?_
  by_cases hx : s.alive x = true
  swap
  · have : ¬ h.live x := fun e => hx ((ha.live_iff hv x).1 e)
    exact (Counts.free _ _).bind_fail (e := .panic "[precondition] the node must be alive") (s' := h)
      (by simp [nbrOf, M.read, Hier.neighbors_dead this])
  have hxl := (ha.live_iff hv x).2 hx
  refine Counts.free_bind (nbrOf_live hxl _) ?_
  have hpar : (h.get x).parent = s.parent x := by rw [ha.get_alive hx]; rfl
  by_cases hC : s.kids x = []
  · refine Counts.free_bind (a := none) (s' := h) (by simp only [M.read, ha.firstLastChild hv hx, hC]; rfl) ?_
    exact Counts.free0 fun _ _ => Counts.pure _ _
  · have hp : s.parent x = none := hs.resolve_left hC
    obtain ⟨f, hf⟩ : ∃ f, (s.kids x).head? = some f := by
      cases e : s.kids x with
      | nil => exact absurd e hC
      | cons a l => exact ⟨a, rfl⟩
    obtain ⟨l, hl, _⟩ := getLast?_of_mem (List.mem_of_mem_head? hf)
    refine Counts.free_bind (a := some (f, l)) (s' := h)
      (by simp only [M.read, ha.firstLastChild hv hx, hf, hl]; rfl) ?_
    refine Counts.free_bind (a := none) (s' := h) (by simp only [M.read, getParent_live hxl, hpar, hp]) ?_
    dsimp only
    split
    · exact Counts.pure _ _
    · exact Counts.free0 fun _ _ => Counts.free0 fun _ _ => Counts.pure _ _

/-- `detach_single` of a node with parent and children. -/
theorem detachSingle_counts (ha : Agrees h s) (hv : s.Valid) {x p : Nat} {pl : List Nat}
    (hp : s.parent x = some p) (hC : s.kids x ≠ []) (hpath : UpPath s.parent p pl) :
    Counts (detachSingle x) (Hier.detachSingle x) h
      (pl.length + (s.kids x).length + if (s.kids x).length = 1 then 2 else 1) := by
  have hx : s.alive x = true := (hv.parent_alive x p hp).1
  have hpa : s.alive p = true := (hv.parent_alive x p hp).2
  have hxl := (ha.live_iff hv x).2 hx
  have hpx := hv.parent_ne hp
  obtain ⟨f, hf⟩ : ∃ f, (s.kids x).head? = some f := by
    cases e : s.kids x with
    | nil => exact absurd e hC
    | cons a l => exact ⟨a, rfl⟩
  have hfC : f ∈ s.kids x := List.mem_of_mem_head? hf
  obtain ⟨l, hl, hlC⟩ := getLast?_of_mem hfC
  have hCnd := hv.kids_nodup x
  have hCx : ∀ c, c ∈ s.kids x → c ≠ x := fun c hc e => hv.self_not_kid (x := x) (e ▸ hc)
  have hCp : p ∉ s.kids x := fun hm => by
    have := hv.kid_parent hm
    exact (hv.rooted x).acyclic hp (.step this .refl)
  obtain ⟨h1, hc1, hlen1, hgx1, hgo1⟩ := disconnect ha hv hp
  have hpar : (h.get x).parent = s.parent x := by rw [ha.get_alive hx]; rfl
  have hnx : (h.get x).next = s.next x := by rw [ha.get_alive hx]; rfl
  have hg1C : ∀ c, c ∈ s.kids x → h1.get c = Neighbors.mk (some x) (pc (s.kids x) c) (nx (s.kids x) c) (s.kids c).head? := by
    intro c hc
    have hca : (s.detach x).alive c = true := hv.kid_alive hc
    have hcp : s.parent c = some x := hv.kid_parent hc
    have hcnp : s.parent c ≠ some p := by rw [hcp]; simp; exact hpx.symm
    have hcp' : c ≠ p := fun e => hCp (e ▸ hc)
    rw [hgo1 c (hCx c hc), entry_alive hca, hv.detach_link_other hp (hCx c hc) hcp' hcnp, link_child hcp]
  have hlive1 : ∀ y, s.alive y = true → h1.live y := by
    intro y hy
    by_cases e : y = x
    · subst e; unfold Hier.live; rw [hgx1]; exact hv.link_alive y
    · unfold Hier.live; rw [hgo1 y e, (hv.detach x).entry_isAlive]; exact hy
  have hCa : ∀ c, c ∈ s.kids x → s.alive c = true := fun c hc => hv.kid_alive hc
  have hf1 := hlive1 f (hCa f hfC)
  have hl1 := hlive1 l (hCa l hlC)
  have hx1 := hlive1 x hx
  have hp1 := hlive1 p hpa
  have hrange : rangeNew h1 f l = .ok (f, l) := by
    unfold rangeNew
    by_cases e : f = l
    · subst e
      simp [rangeSingle, (isAlive_iff h1 f).2 hf1]
    · have e1 : (h1.get f).getParent = .ok (some x) := by rw [getParent_live hf1, hg1C f hfC]
      have e2 : (h1.get l).getParent = .ok (some x) := by rw [getParent_live hl1, hg1C l hlC]
      simp [e, neighbors_live hf1, neighbors_live hl1, e1, e2]
  have hpathx := path_avoids hv hp hpath
  have hreads : ReadsPath h1 s.parent pl := by
    intro y hy
    have hya := (hpath.mem_iff.1 hy).alive hv hpa
    have hyx : y ≠ x := fun e => hpathx (e ▸ hy)
    refine ⟨hlive1 y hya, ?_⟩
    have hd : (s.detach x).alive y = true := hya
    rw [hgo1 y hyx, entry_alive hd]
    exact s.detach_parent hyx
  have hplen : pl.length ≤ s.size := hv.path_length hpath hpa
  have hone : (s.kids x).length = 1 ↔ f = l := by
    constructor
    · intro h1
      obtain ⟨c, hc⟩ := List.length_eq_one_iff.1 h1
      rw [hc] at hf hl; simp at hf hl; exact hf.symm.trans hl
    · intro e
      match hk : s.kids x with
      | [] => exact absurd hk hC
      | [_] => rfl
      | a :: b :: r =>
        exfalso
        rw [hk] at hf hl hCnd
        simp at hf
        rw [List.getLast?_cons_cons] at hl
        have := List.mem_of_getLast? hl
        rw [← e, ← hf] at this
        exact (List.nodup_cons.1 hCnd).1 this
  -- the loop test
  have hcycC : Counts (wouldMakeCyclicLinks f l p) (M.read fun h => Hier.wouldMakeCyclicLinks h f l p) h1
      (if f = l then pl.length + 1 else pl.length) ∧ Hier.wouldMakeCyclicLinks h1 f l p = .ok false := by
    by_cases e : f = l
    · subst e
      have hfp : f ∉ pl := fun hm => hpathx (hpath.mem_iff.2
        ((AncOrSelf.parent (hv.kid_parent hfC)).trans (hpath.mem_iff.1 hm)))
      have hfu : pl.length < h1.loopFuel := by unfold loopFuel; omega
      have hv2 : Hier.wouldMakeCyclicLinks h1 f f p = .ok false := by
        unfold Hier.wouldMakeCyclicLinks
        simp only [neighbors_live hf1, expect_some, Ancestors.withStart]
        rw [(isAlive_iff h1 p).2 hp1]
        simp only [if_true, Bool.not_true, Bool.false_eq_true, if_false]
        rw [ancestorsMeet_eq hpath hreads hfu]
        congr 1
        rw [decide_eq_false_iff_not]; exact hfp
      refine ⟨?_, hv2⟩
      have hc := ancestorsMeet_miss hpath hreads hfp hfu
      intro n
      have := hc n
      simp only [M.read] at this
      unfold wouldMakeCyclicLinks Hier.wouldMakeCyclicLinks
      simp [M.read, free, M.zoom, Hier.nbrOf, neighbors_live hf1, Ancestors.withStart, (isAlive_iff h1 p).2 hp1, this]
    · have hgp : (h1.get f).getParent = .ok (some x) := by rw [getParent_live hf1, hg1C f hfC]
      have hpp := (hreads p (hpath.mem_iff.2 .refl)).2
      have hloop : Counts (rangeLoop f l x h1.loopFuel (2 * h1.loopFuel) (s.parent p) p)
          (M.read fun h => Hier.rangeLoop h f l x h1.loopFuel (2 * h1.loopFuel) (s.parent p) p) h1 pl.length ∧
          Hier.rangeLoop h1 f l x h1.loopFuel (2 * h1.loopFuel) (s.parent p) p = .ok false := by
        cases hpath with
        | root h0 =>
          rw [h0, show 2 * loopFuel h1 = (2 * h1.nbrs.length + 3) + 1 by unfold loopFuel; omega]
          constructor
          · intro n
            simp [rangeLoop, Hier.rangeLoop, M.read, free, tick, M.zoom, next_none, Res.withCount]
          · simp [Hier.rangeLoop, next_none]
        | @step _ q l' h0 hpath' =>
          rw [h0]
          have hr' : ReadsPath h1 s.parent l' := fun y hy => hreads y (by simp [hy])
          have hx' : x ∉ l' := fun hm => hpathx (by simp [hm])
          have hfu : l'.length < 2 * h1.loopFuel := by unfold loopFuel; simp at hplen; omega
          exact ⟨rangeLoop_miss hpath' hr' hx' hfu, rangeLoop_eq hpath' hr' hx' hfu⟩
      have hnx1 : Ancestors.next h1 (some p) = .ok (some p, s.parent p) := by
        rw [ancestors_next_some hp1, hpp]
      refine ⟨?_, ?_⟩
      · rw [if_neg e]
        intro n
        have := hloop.1 n
        simp only [M.read] at this
        unfold wouldMakeCyclicLinks Hier.wouldMakeCyclicLinks
        simp [M.read, free, M.zoom, Hier.nbrOf, neighbors_live hf1, Ancestors.withStart, (isAlive_iff h1 p).2 hp1, e, hgp,
          hpx.symm, hnx1, this]
      · unfold Hier.wouldMakeCyclicLinks
        simp [neighbors_live hf1, Ancestors.withStart, (isAlive_iff h1 p).2 hp1, e, hgp, hpx.symm, hnx1, hloop.2]
  have hprevf : (h1.get f).prevSibling h1 = .ok none := by
    have e1 : (h1.get f).prevCyc = some l := by
      rw [hg1C f hfC]; show pc _ _ = _; rw [pc_self hfC, if_pos hf, hl]
    rw [prevSibling_eq e1 hl1, hg1C l hlC]
    have : nx (s.kids x) l = none := by
      unfold nx; rw [List.head?_eq_none_iff, after_eq_nil_iff hCnd hlC]; exact hl
    simp [this]
  have hnextl : (h1.get l).nextSibling = .ok none := by
    rw [nextSibling_live hl1, hg1C l hlC]
    have : nx (s.kids x) l = none := by
      unfold nx; rw [List.head?_eq_none_iff, after_eq_nil_iff hCnd hlC]; exact hl
    simp [this]
  have hdisc : transplantDisconnect f l h1 = .ok () (h1.put x { h1.get x with first := none }) := by
    have hgp : (h1.get f).getParent = .ok (some x) := by rw [getParent_live hf1, hg1C f hfC]
    unfold transplantDisconnect
    simp only [M.run_bind, nbrOf_live hf1, M.read, hgp, hprevf, nbrOf_live hl1, hnextl]
    exact connect_p hx1
  generalize hh2 : h1.put x { h1.get x with first := none } = h2 at hdisc
  have hlen2 : h2.nbrs.length = s.size := by rw [← hh2]; simpa using hlen1
  have hget2 : ∀ y, h2.get y = if y = x then { h1.get x with first := none } else h1.get y := by
    intro y; rw [← hh2, get_put (live_lt hx1)]
  have hlive2 : ∀ c, c ∈ s.kids x → h2.live c := by
    intro c hc
    unfold Hier.live; rw [hget2 c, if_neg (hCx c hc)]; exact hlive1 c (hCa c hc)
  have hrwC := rewriteParents_counts (P := p) (l := l) (f := f) hCnd hCp (h := h2)
    (fuel := h2.loopFuel) hf hl
    (by
      unfold loopFuel; rw [hlen2]
      have := nodup_length_le hCnd (fun c hc => hv.alive_lt c (hCa c hc))
      omega)
    hlive2
    (by
      intro c hc _
      rw [hget2 c, if_neg (hCx c hc), hg1C c hc])
  have htrans : ∀ prev next, Counts (transplant f l p prev next) (Hier.transplant f l p prev next) h1
      ((if f = l then pl.length + 1 else pl.length) + (s.kids x).length) := by
    intro prev next
    unfold transplant Hier.transplant
    refine hcycC.1.bind_ok (a := false) (s' := h1) (by simp only [M.read, hcycC.2]) ?_
    simp only [Bool.false_eq_true, if_false]
    refine Counts.free_bind hdisc (Counts.free_bind (a := h2.loopFuel) (s' := h2) rfl ?_)
    exact hrwC.bind0 fun _ _ => Counts.free0 fun _ _ => Counts.pure _ _
  have hcount : pl.length + (s.kids x).length + (if (s.kids x).length = 1 then 2 else 1) =
      (if f = l then pl.length + 1 else pl.length) + (s.kids x).length + 1 := by
    by_cases e : f = l
    · rw [if_pos e, if_pos (hone.2 e)]; omega
    · rw [if_neg e, if_neg (fun h => e (hone.1 h))]
  rw [hcount]
  refine Counts.tick ?_
  refine Counts.free_bind (nbrOf_live hxl _) (Counts.free_bind (a := some (f, l)) (s' := h)
    (by simp only [M.read, ha.firstLastChild hv hx, hf, hl]; rfl) ?_)
  refine Counts.free_bind (a := some p) (s' := h) (by simp only [M.read, getParent_live hxl, hpar, hp]) ?_
  refine Counts.free_bind (a := s.prev x) (s' := h) (by simp only [M.read, ha.prevSibling hv hx])
    (Counts.free_bind (a := s.next x) (s' := h) (by simp only [M.read, nextSibling_live hxl, hnx]) ?_)
  refine Counts.free_bind hc1 (Counts.free_bind (a := (f, l)) (s' := h1) (by simp only [M.read, hrange]) ?_)
  refine (htrans _ _).bind0 fun r h' => ?_
  cases r with
  | error e => exact Counts.panic _ _
  | ok u =>
    refine Counts.free0 fun _ _ => Counts.free0 fun _ _ => Counts.free0 fun fc _ => ?_
    split
    · exact Counts.panic _ _
    · exact Counts.pure _ _

/-! ### Removal -/

theorem removeLoop_counts {S : Type} {hook : Forest.Hook S T}
    {close : Nat → M (Forest T × S) Unit} {root : Nat} {f0 : Forest T} {E : List (Ev Nat)}
    {St : List Nat → Forest T → Prop}
    (hnext : ∀ done e L f, E = done ++ e :: L → St (Tree.closes done) f →
      Safe.nextOfNext f.hier root e = .ok L.head?)
    (hclose : ∀ done y L f, E = done ++ .cls y :: L → St (Tree.closes done) f →
      ∃ d f', f0.getData y = some d ∧ St (Tree.closes done ++ [y]) f' ∧
        ∀ σ, close y (f, σ) = Forest.callHook hook d (f', σ)) :
    ∀ (fuel : Nat) (L done : List (Ev Nat)) (f : Forest T) (σ : S), E = done ++ L → St (Tree.closes done) f →
      L.length < fuel →
      ∃ k, k ≤ L.length + 1 ∧ Counts (removeLoop close fuel { next := L.head?, root := root })
        (Forest.removeLoop close fuel { next := L.head?, root := root }) (f, σ) k ∧
        (∀ u st, Forest.removeLoop close fuel { next := L.head?, root := root } (f, σ) = .ok u st → k = L.length + 1) := by
  intro fuel
  induction fuel with
  | zero => intro L _ _ _ _ _ h; omega
  | succ fuel ih =>
    intro L done f σ hE hst hl
    cases L with
    | nil =>
      refine ⟨1, by simp, ?_, fun _ _ _ => rfl⟩
      unfold removeLoop Forest.removeLoop
      refine Counts.tick (Counts.free_bind (a := (none, { next := none, root := root })) (s' := (f, σ))
        (by simp [M.read, Safe.next]) ?_)
      exact Counts.pure _ _
    | cons e L =>
      have hn := hnext done e L f hE hst
      have hlt : L.length < fuel := by simpa using hl
      have hread : (M.read (fun p : Forest T × S => Safe.next p.1.hier { next := some e, root := root })) (f, σ)
          = .ok (some e, { next := L.head?, root := root }) (f, σ) := by
        simp only [M.read, Safe.next, hn]
      cases e with
      | opn y =>
        obtain ⟨k, h1, h2, h3⟩ := ih L (done ++ [.opn y]) f σ (by simp [hE]) (by simpa using hst) hlt
        refine ⟨k + 1, by simp; omega, ?_, ?_⟩
        · unfold removeLoop Forest.removeLoop
          exact Counts.tick (Counts.free_bind hread h2)
        · intro u st hr
          simp only [List.head?_cons, Forest.removeLoop, M.run_bind, hread] at hr
          rw [h3 u st hr]; simp
      | cls y =>
        obtain ⟨d, f1, hd, hst1, hcl⟩ := hclose done y L f hE hst
        cases hh : hook σ d with
        | error σ' =>
          have hcr : close y (f, σ) = .fail (.panic "hook panicked") (f1, σ') := by rw [hcl σ]; simp [Forest.callHook, hh]
          refine ⟨1, by simp, ?_, ?_⟩
          · unfold removeLoop Forest.removeLoop
            exact Counts.tick (k := 0) (Counts.free_bind hread ((Counts.free _ _).bind_fail hcr))
          · intro u st hr
            simp only [List.head?_cons, Forest.removeLoop, M.run_bind, hread, hcr] at hr
            cases hr
        | ok σ' =>
          have hcr : close y (f, σ) = .ok () (f1, σ') := by rw [hcl σ]; simp [Forest.callHook, hh]
          obtain ⟨k, h1, h2, h3⟩ := ih L (done ++ [.cls y]) f1 σ' (by simp [hE]) (by simpa using hst1) hlt
          refine ⟨k + 1, by simp; omega, ?_, ?_⟩
          · unfold removeLoop Forest.removeLoop
            exact Counts.tick (Counts.free_bind hread (Counts.free_bind hcr h2))
          · intro u st hr
            simp only [List.head?_cons, Forest.removeLoop, M.run_bind, hread, hcr] at hr
            rw [h3 u st hr]; simp

variable {S : Type} {t : Tree Nat}

theorem removeWith_counts (close : Nat → M (Forest T × S) Unit) (hm : Models f s) {x K : Nat} (hx : s.alive x = true) (σ : S)
    (hloop : ∀ f0, Models f0 (s.detach x) → ∃ k, k ≤ K ∧
      Counts (removeLoop close (Forest.removeFuel f0) { next := some (.opn x), root := x })
        (Forest.removeLoop close (Forest.removeFuel f0) { next := some (.opn x), root := x }) (f0, σ) k ∧
      (∀ u st, Forest.removeLoop close (Forest.removeFuel f0) { next := some (.opn x), root := x } (f0, σ) = .ok u st → k = K)) :
    ∃ k, k ≤ K + 1 ∧ Counts (removeWith close x) (Forest.removeWith close x) (f, σ) k ∧
      (∀ u st, Forest.removeWith close x (f, σ) = .ok u st → k = K + 1) := by
  obtain ⟨f0, hd, hm0, hdat⟩ := forest_detach_models hm hx
  have ha0 : f0.hier.isAlive x = true := by rw [hm0.hierAlive]; exact hx
  have ha : f.hier.isAlive x = true := by rw [hm.hierAlive]; exact hx
  obtain ⟨k, h1, h2, h3⟩ := hloop f0 hm0
  refine ⟨k + 1, by omega, ?_, ?_⟩
  · refine Counts.tick (Counts.free_bind (a := true) (s' := (f, σ)) (by simp [M.read, ha]) ?_)
    simp only [Bool.not_true, Bool.false_eq_true, if_false]
    refine Counts.free_bind (onForest_run hd) (Counts.free_bind (a := { next := some (.opn x), root := x }) (s' := (f0, σ))
      (by simp [M.read, Safe.new, ha0]) (Counts.free_bind (a := Forest.removeFuel f0) (s' := (f0, σ)) rfl h2))
  · intro u st hr
    have : Forest.removeWith close x (f, σ) =
        Forest.removeLoop close (Forest.removeFuel f0) { next := some (.opn x), root := x } (f0, σ) := by
      simp only [Forest.removeWith, M.run_bind, M.read, ha, Bool.not_true, Bool.false_eq_true, if_false,
        onForest_run hd, Safe.new, ha0]
    rw [this] at hr
    rw [h3 u st hr]

theorem removeWith_dead (close : Nat → M (Forest T × S) Unit) (hm : Models f s) {x : Nat} (hx : s.alive x = false) (σ : S) :
    Counts (removeWith close x) (Forest.removeWith close x) (f, σ) 1 := by
  have ha : f.hier.isAlive x = false := by rw [hm.hierAlive]; exact hx
  refine Counts.tick (Counts.free_bind (a := false) (s' := (f, σ)) (by simp [M.read, ha]) ?_)
  exact Counts.pure _ _

theorem remove_fuel {f0 : Forest T} (hm : Models f0 s) (ht : Tree.IsTree s.kids t) (hx : s.alive t.root = true) :
    t.events.length < Forest.removeFuel f0 := by
  have h2 := Tree.count_le_size hm.valid ht hx
  have h3 := hm.agrees.1
  have h4 : 2 * f0.hier.nbrs.length < Forest.removeFuel f0 := by unfold Forest.removeFuel; nlinarith
  rw [Tree.length_events]; omega

theorem removeHooked_counts (hook : Forest.Hook S T) (hm : Models f s) (ht : Tree.IsTree s.kids t)
    (hx : s.alive t.root = true) (σ : S) :
    ∃ k, k ≤ 2 * t.count + 2 ∧ Counts (removeHooked hook t.root) (Forest.removeHooked hook t.root) (f, σ) k ∧
      (∀ u st, Forest.removeHooked hook t.root (f, σ) = .ok u st → k = 2 * t.count + 2) := by
  refine removeWith_counts (K := 2 * t.count + 1) (Forest.closeForce hook) hm hx σ fun f0 hm0 => ?_
  have ht0 := Tree.isTree_detach hm.valid ht
  have := removeLoop_counts (hook := hook) (close := Forest.closeForce hook) (root := t.root) (f0 := f0)
    (E := t.events) (St := RawKilled f0) (removeForce_next hm0 ht0 hx) (removeForce_close hook hm0 ht0 hx)
    (Forest.removeFuel f0) t.events [] f0 σ rfl ⟨rfl, by simp, ⟨rfl, by simp⟩⟩ (remove_fuel hm0 ht0 hx)
  rwa [events_cons t, List.head?_cons, ← events_cons t, Tree.length_events] at this

theorem removeHookedPanicSafe_counts (hook : Forest.Hook S T) (hm : Models f s) (ht : Tree.IsTree s.kids t)
    (hx : s.alive t.root = true) (σ : S) :
    ∃ k, k ≤ 2 * t.count + 2 ∧
      Counts (removeHookedPanicSafe hook t.root) (Forest.removeHookedPanicSafe hook t.root) (f, σ) k ∧
      (∀ u st, Forest.removeHookedPanicSafe hook t.root (f, σ) = .ok u st → k = 2 * t.count + 2) := by
  refine removeWith_counts (K := 2 * t.count + 1) (Forest.closePanicSafe hook) hm hx σ fun f0 hm0 => ?_
  have ht0 := Tree.isTree_detach hm.valid ht
  have := removeLoop_counts (hook := hook) (close := Forest.closePanicSafe hook) (root := t.root) (f0 := f0)
    (E := t.events) (St := SafeKilled f0 (s.detach t.root)) (removeSafe_next hm0 ht0 hx) (removeSafe_close hook hm0 ht0 hx)
    (Forest.removeFuel f0) t.events [] f0 σ rfl ⟨(by
      have : ((s.detach t.root).kill fun z => decide (z ∈ Tree.closes ([] : List (Ev Nat)))) = s.detach t.root := by
        simp [Shape.kill]
      rw [this]; exact hm0), ⟨rfl, by simp⟩⟩ (remove_fuel hm0 ht0 hx)
  rwa [events_cons t, List.head?_cons, ← events_cons t, Tree.length_events] at this

end Treena.Steps
