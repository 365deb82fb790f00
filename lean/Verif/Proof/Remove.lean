import Mathlib.Tactic.Linarith
import Verif.Proof.Order
import Verif.Spec.Hook
/-! Removal of subtrees. -/

namespace Treena
open Hier

variable {T : Type} {f : Forest T} {s : Shape}

/-! ### Killing nodes in a shape -/

namespace Shape

theorem Valid.kill (hv : s.Valid) {dead : Nat → Bool}
    (hd : ∀ y p, s.parent y = some p → dead p = true → dead y = true) : (s.kill dead).Valid where
  alive_lt := fun x h => by
    simp only [Shape.kill, Bool.and_eq_true] at h
    exact hv.alive_lt x h.1
  parent_alive := fun x p h => by
    simp only [Shape.kill] at h ⊢
    split at h
    · cases h
    · rename_i hx
      have := hv.parent_alive x p h
      have hp : ¬ dead p = true := fun e => hx (hd x p h e)
      simp [this.1, this.2, hx, hp]
  mem_kids := fun x p => by
    simp only [Shape.kill]
    by_cases hx : dead x = true
    · simp only [hx, if_true]
      constructor
      · intro h; split at h
        · simp at h
        · simp [hx] at h
      · intro h; cases h
    · simp only [hx]
      by_cases hp : dead p = true
      · simp only [hp, if_true]
        constructor
        · intro h; simp at h
        · intro h; exact absurd (hd x p h hp) hx
      · simp [hp, hx, hv.mem_kids]
  kids_nodup := fun p => by
    simp only [Shape.kill]
    split
    · simp
    · exact (hv.kids_nodup p).filter _
  rooted := fun x => by
    have := hv.rooted x
    induction this with
    | @root x h => refine .root ?_; simp only [Shape.kill]; split <;> simp [h]
    | @step x p h _ ih =>
      by_cases hx : dead x = true
      · refine .root ?_; simp [Shape.kill, hx]
      · exact .step (p := p) (by simp [Shape.kill, hx, h]) ih

/-- Killing whole trees does not change the links of the others. -/
theorem Valid.kill_link (hv : s.Valid) {dead : Nat → Bool}
    (hd : ∀ y p, s.parent y = some p → dead y = dead p) {y : Nat} (hy : dead y = false) :
    (s.kill dead).link y = s.link y := by
  have hk : ∀ q, dead q = false → (s.kill dead).kids q = s.kids q := by
    intro q hq
    simp only [Shape.kill, hq, Bool.false_eq_true, if_false]
    rw [List.filter_eq_self]
    intro z hz
    rw [hd z q (hv.kid_parent hz), hq]; rfl
  have hp : (s.kill dead).parent y = s.parent y := by simp [Shape.kill, hy]
  cases e : s.parent y with
  | none =>
    rw [link_root (s := s.kill dead) (by rw [hp, e]), link_root e, hk y hy]
  | some p =>
    have hpd : dead p = false := by rw [← hd y p e, hy]
    rw [link_child (s := s.kill dead) (by rw [hp, e]), link_child e, hk y hy, hk p hpd]

end Shape

theorem Agrees.kill {h h' : Hier} (ha : Agrees h s) (hv : s.Valid) {dead : Nat → Bool}
    (hd : ∀ y p, s.parent y = some p → dead y = dead p) (hl : h'.nbrs.length = h.nbrs.length)
    (hg : ∀ y, h'.get y = if dead y then Neighbors.removed else h.get y) :
    Agrees h' (s.kill dead) := by
  refine ⟨by rw [hl]; exact ha.1, fun y => ?_⟩
  rw [hg y]
  cases hy : dead y with
  | true => simp [Shape.entry, Shape.kill, hy]
  | false =>
    have : (s.kill dead).entry y = s.entry y := by
      unfold Shape.entry
      rw [hv.kill_link hd hy]
      simp [Shape.kill, hy]
    simp only [Bool.false_eq_true, if_false, this]
    exact ha.2 y

theorem Shape.kill_detach_kill (hv : s.Valid) (C : List Nat) (y : Nat) :
    (((s.kill (fun z => decide (z ∈ C))).detach y).kill (fun z => decide (z = y))) =
      s.kill (fun z => decide (z ∈ C ++ [y])) := by
  simp only [Shape.kill, Shape.detach, upd, Shape.mk.injEq, true_and]
  refine ⟨?_, ?_, ?_⟩
  · funext z; by_cases h1 : z ∈ C <;> by_cases h2 : z = y <;> simp [h1, h2]
  · funext z; by_cases h1 : z ∈ C <;> by_cases h2 : z = y <;> simp [h1, h2]
  · funext q
    by_cases h2 : q = y
    · simp [h2]
    · by_cases h1 : q ∈ C
      · simp [h1, h2]
      · simp only [h1, h2, decide_false, Bool.false_eq_true, if_false, List.mem_append,
          List.mem_singleton, or_self]
        rw [List.Nodup.erase_eq_filter ((hv.kids_nodup q).filter _)]
        simp only [List.filter_filter]
        congr 1
        funext z
        by_cases h3 : z ∈ C <;> by_cases h4 : z = y <;> simp [h3, h4]

theorem Shape.detach_kill (hv : s.Valid) {x : Nat} {dead : Nat → Bool} (hx : dead x = true) :
    (s.detach x).kill dead = s.kill dead := by
  simp only [Shape.kill, Shape.detach, upd, Shape.mk.injEq, true_and]
  refine ⟨?_, ?_⟩
  · funext z; by_cases h2 : z = x <;> simp [h2, hx]
  · funext q
    rw [(hv.kids_nodup q).erase_eq_filter, List.filter_filter]
    congr 2
    funext z
    by_cases h4 : z = x <;> simp [h4, hx]

namespace Tree

theorem isTree_congr {kids kids' : Nat → List Nat} : ∀ (t : Tree Nat),
    (∀ y ∈ t.preorder, kids y = kids' y) → IsTree kids t → IsTree kids' t
  | .node x ts, h, ⟨h1, h2⟩ => by
    refine ⟨by rw [← h1, h x (by simp [preorder])], ?_⟩
    rw [isForest_iff] at h2 ⊢
    intro u hu
    exact isTree_congr u (fun y hy => h y (by
      simp only [preorder, List.mem_cons]; right; rw [mem_preorderL]; exact ⟨u, hu, hy⟩)) (h2 u hu)
termination_by t => sizeOf t
decreasing_by simp_wf; have := List.sizeOf_lt_of_mem hu; omega

theorem isTree_detach (hv : s.Valid) {t : Tree Nat} (ht : IsTree s.kids t) :
    IsTree (s.detach t.root).kids t := by
  refine isTree_congr t (fun y hy => ?_) ht
  show s.kids y = (s.kids y).erase t.root
  rw [List.erase_of_not_mem]
  intro hm
  have := mem_preorder_anc hv t ht y hy
  exact (hv.rooted t.root).acyclic (hv.kid_parent hm) this

end Tree

/-! ### The loop -/

/-- A node is closed: its data is handed to the hook. -/
theorem removeLoop_spec {S : Type} {hook : Forest.Hook S T}
    {close : Nat → M (Forest T × S) Unit} {root : Nat} {f0 : Forest T} {E : List (Ev Nat)}
    {St : List Nat → Forest T → Prop}
    (hnext : ∀ done e L f, E = done ++ e :: L → St (Tree.closes done) f →
      Safe.nextOfNext f.hier root e = .ok L.head?)
    (hclose : ∀ done y L f, E = done ++ .cls y :: L → St (Tree.closes done) f →
      ∃ d f', f0.getData y = some d ∧ St (Tree.closes done ++ [y]) f' ∧
        ∀ σ, close y (f, σ) = Forest.callHook hook d (f', σ)) :
    ∀ (fuel : Nat) (L done : List (Ev Nat)) (f : Forest T) (σ : S), E = done ++ L → St (Tree.closes done) f →
      L.length < fuel →
      ∃ f', match feed hook σ ((Tree.closes L).filterMap f0.getData) with
        | (σ', none) =>
          Forest.removeLoop close fuel { next := L.head?, root := root } (f, σ) = .ok () (f', σ') ∧
          St (Tree.closes E) f'
        | (σ', some k) =>
          Forest.removeLoop close fuel { next := L.head?, root := root } (f, σ) =
            .fail (.panic "hook panicked") (f', σ') ∧
          St ((Tree.closes done) ++ (Tree.closes L).take (k + 1)) f' := by
  intro fuel
  induction fuel with
  | zero => intro L _ _ _ _ _ h; omega
  | succ fuel ih =>
    intro L done f σ hE hst hl
    cases L with
    | nil =>
      refine ⟨f, ?_⟩
      simp only [Tree.closes_nil, List.filterMap_nil, feed]
      refine ⟨?_, by rw [hE]; simpa using hst⟩
      simp [Forest.removeLoop, M.read, Safe.next]
    | cons e L =>
      have hn := hnext done e L f hE hst
      have hlt : L.length < fuel := by simpa using hl
      have hread : (M.read (fun p : Forest T × S => Safe.next p.1.hier { next := some e, root := root })) (f, σ)
          = .ok (some e, { next := L.head?, root := root }) (f, σ) := by
        simp only [M.read, Safe.next, hn]
      cases e with
      | opn y =>
        obtain ⟨f', h⟩ := ih L (done ++ [.opn y]) f σ (by simp [hE]) (by simpa using hst) hlt
        refine ⟨f', ?_⟩
        simp only [Tree.closes_opn, List.head?_cons, Forest.removeLoop, M.run_bind, hread]
        simpa using h
      | cls y =>
        obtain ⟨d, f1, hd, hst1, hcl⟩ := hclose done y L f hE hst
        simp only [Tree.closes_cls, List.filterMap_cons, hd, List.head?_cons, Forest.removeLoop, M.run_bind,
          hread, hcl σ, feed, Forest.callHook]
        cases hh : hook σ d with
        | error σ' => exact ⟨f1, by simpa using hst1⟩
        | ok σ' =>
          simp only
          obtain ⟨f', h⟩ := ih L (done ++ [.cls y]) f1 σ' (by simp [hE]) (by simpa using hst1) hlt
          refine ⟨f', ?_⟩
          cases hf : (feed hook σ' ((Tree.closes L).filterMap f0.getData)) with
          | mk r k =>
            rw [hf] at h
            simp only
            cases k with
            | none => simpa using h
            | some k =>
              simp only [Option.map_some, List.take_succ_cons]
              simpa using h

/-- Without the data of the closed nodes. -/
structure DataKilled (f0 : Forest T) (C : List Nat) (f : Forest T) : Prop where
  len : f.data.length = f0.data.length
  get : ∀ y, f.getData y = if y ∈ C then none else f0.getData y

theorem DataKilled.take {f0 f : Forest T} {C : List Nat} (hD : DataKilled f0 C f) {y : Nat} {d : T}
    (hy : y ∉ C) (hd : f0.getData y = some d) (h' : Hier) :
    Forest.takeData y { f with hier := h' } = .ok d { hier := h', data := f.data.set y none } ∧
    DataKilled f0 (C ++ [y]) { hier := h', data := f.data.set y none } := by
  have hg := hD.get y
  rw [if_neg hy, hd] at hg
  have hg' : f.data[y]? = some (some d) := by
    unfold Forest.getData at hg
    cases e : f.data[y]? with
    | none => rw [e] at hg; cases hg
    | some o => rw [e] at hg; simpa using hg
  refine ⟨by simp [Forest.takeData, hg'], by simp [hD.len], fun z => ?_⟩
  have hlt : y < f.data.length := by
    rw [List.getElem?_eq_some_iff] at hg'; exact hg'.1
  have : Forest.getData { hier := h', data := f.data.set y none } z
      = if z = y then none else f.getData z := by
    unfold Forest.getData
    simp only [List.getElem?_set]
    by_cases e : y = z
    · subst e; simp [hlt]
    · have : ¬ z = y := fun e' => e e'.symm
      simp [e, this]
  rw [this, hD.get z]
  by_cases e : z = y
  · simp [e]
  · simp [e]

theorem safe_of_dft {h : Hier} {root : Nat} {e : Ev Nat} {o : Option (Ev Nat)} (hne : e ≠ .cls root)
    (hs : Dft.stepFwd h e = .ok o) : Safe.nextOfNext h root e = .ok o := by
  unfold Safe.nextOfNext
  rw [if_neg hne]
  cases e with
  | opn y =>
    simp only [Dft.stepFwd, travNbr] at hs
    cases hn : h.neighbors y with
    | none => simp [hn] at hs
    | some nb => simpa [hn] using hs
  | cls y =>
    have hy : y ≠ root := fun e => hne (by rw [e])
    simp only [Dft.stepFwd, travNbr] at hs
    cases hn : h.neighbors y with
    | none => simp [hn] at hs
    | some nb => simpa [hn, if_neg hy] using hs

theorem safe_last (h : Hier) (root : Nat) : Safe.nextOfNext h root (.cls root) = .ok none := by
  simp [Safe.nextOfNext]

section walk
variable {t : Tree Nat} (hm : Models f s) (ht : Tree.IsTree s.kids t) (hx : s.alive t.root = true)
include hm ht hx

/-- In the events of a tree, only the last one closes the root. -/
theorem events_split {done L : List (Ev Nat)} {e : Ev Nat} (hE : t.events = done ++ e :: L) :
    (e = .cls t.root ∧ L = []) ∨
      (e ≠ .cls t.root ∧ ∃ e' L', L = e' :: L' ∧ Dft.stepFwd f.hier e = .ok (some e')) := by
  have w := dft_walk hm ht hx
  obtain ⟨I, hI⟩ := Tree.events_last t
  cases L with
  | nil =>
    left
    rw [hI] at hE
    have := List.append_inj_right' hE (by simp)
    simp at this
    exact ⟨this.symm, rfl⟩
  | cons e' L' =>
    right
    refine ⟨?_, e', L', rfl, ?_⟩
    · intro he
      rw [he] at hE
      have hnd := w.nodup
      have h1 : Ev.cls t.root ∈ (e' :: L') := by
        have hlast : (e' :: L').getLast? = some (Ev.cls t.root) := by
          have := congrArg List.getLast? (hI.symm.trans hE)
          simp at this
          rw [List.getLast?_eq_some_getLast (l := e' :: L') (by simp)] at this ⊢
          simpa using this.symm
        exact List.mem_of_getLast? hlast
      rw [hE] at hnd
      exact (List.nodup_cons.1 (List.nodup_append.1 hnd).2.1).1 h1
    · have hc := w.chain
      rw [hE, List.isChain_append] at hc
      have := hc.2.1
      simp at this
      exact this.1.1

theorem not_closed_self {done L : List (Ev Nat)} {e : Ev Nat} (hE : t.events = done ++ e :: L) :
    e.node ∉ Tree.closes done ∨ ∃ y, e = .opn y := by
  have hnd := (dft_walk hm ht hx).nodup
  rw [hE] at hnd
  cases e with
  | opn y => exact .inr ⟨y, rfl⟩
  | cls y =>
    left; rw [Tree.mem_closes]
    intro hmem
    simp only [Ev.node] at hmem
    exact (List.nodup_append.1 hnd).2.2 _ hmem _ (by simp) rfl

/-- The node of an event is not closed before the event. -/
theorem not_closed {done L : List (Ev Nat)} {e : Ev Nat} (hE : t.events = done ++ e :: L) :
    e.node ∉ Tree.closes done := by
  rcases not_closed_self hm ht hx hE with h | ⟨y, rfl⟩
  · exact h
  · have hnd := (dft_walk hm ht hx).nodup
    rw [Tree.mem_closes]
    intro hmem
    simp only [Ev.node] at hmem
    have hmem' : Ev.opn y ∈ t.events := by rw [hE]; simp
    have hy := (Tree.mem_events_iff t y).1.1 hmem'
    have hoc : [Ev.opn y, .cls y].Sublist t.events := opn_cls_order t y hy
    rw [hE] at hoc hnd
    have := Tree.pair_right hnd hoc
    exact (List.nodup_append.1 hnd).2.2 _ hmem _ (by simp [this]) rfl
where
  opn_cls_order : ∀ (t : Tree Nat) (y : Nat), y ∈ t.preorder → [Ev.opn y, .cls y].Sublist t.events
    | .node x ts, y, hy => by
      simp only [Tree.preorder, List.mem_cons] at hy
      rcases hy with rfl | hy
      · rw [Tree.events, List.cons_sublist_cons]
        exact List.sublist_append_right _ _
      · rw [Tree.mem_preorderL] at hy
        obtain ⟨u, hu, hyu⟩ := hy
        exact Tree.sub_events_node ((opn_cls_order u y hyu).trans (Tree.events_sublist_eventsL hu))
  termination_by t => sizeOf t
  decreasing_by simp_wf; have := List.sizeOf_lt_of_mem hu; omega

end walk

/-! ### `remove_hooked` -/

theorem stepFwd_congr {h h' : Hier} {e : Ev Nat} (he : h.get e.node = h'.get e.node) :
    Dft.stepFwd h e = Dft.stepFwd h' e := by
  have : travNbr h e.node = travNbr h' e.node := by
    unfold travNbr; rw [neighbors_eq, neighbors_eq, he]
  cases e with
  | opn y => simp only [Ev.node] at this; simp only [Dft.stepFwd, this]
  | cls y => simp only [Ev.node] at this; simp only [Dft.stepFwd, this]

/-- Records and data of the nodes in `C` are cleared, all the rest is as in `f0`. -/
structure RawKilled (f0 : Forest T) (C : List Nat) (f : Forest T) : Prop where
  len : f.hier.nbrs.length = f0.hier.nbrs.length
  get : ∀ y, f.hier.get y = if y ∈ C then Neighbors.removed else f0.hier.get y
  data : DataKilled f0 C f

section force
variable {f0 : Forest T} {S : Type} {t : Tree Nat}

theorem onForest_run {α : Type} {m : M (Forest T) α} {g g' : Forest T} {a : α} {σ : S}
    (h : m g = .ok a g') : Forest.onForest m (g, σ) = .ok a (g', σ) := by
  simp [Forest.onForest, M.zoom, h]

theorem data_some (hm : Models f s) {y : Nat} (hy : s.alive y = true) : ∃ d, f.getData y = some d := by
  have := hm.dataAlive y
  rw [hy] at this
  exact Option.isSome_iff_exists.1 this

theorem closeForce_ok (hook : Forest.Hook S T) (hm : Models f0 s) {C : List Nat} {y : Nat} {g : Forest T}
    (hy : s.alive y = true) (hyC : y ∉ C) (hR : RawKilled f0 C g) :
    ∃ d g', f0.getData y = some d ∧ RawKilled f0 (C ++ [y]) g' ∧
      ∀ σ, Forest.closeForce hook y (g, σ) = Forest.callHook hook d (g', σ) := by
  obtain ⟨d, hd⟩ := data_some hm hy
  have hget : g.hier.get y = f0.hier.get y := by rw [hR.get y, if_neg hyC]
  have hl0 : f0.hier.live y := (hm.agrees.live_iff hm.valid y).2 hy
  have hl : g.hier.live y := by unfold Hier.live; rw [hget]; exact hl0
  have hlt : y < g.hier.nbrs.length := live_lt hl
  obtain ⟨htk, hD⟩ := hR.data.take hyC hd (g.hier.put y Neighbors.removed)
  refine ⟨d, { hier := g.hier.put y Neighbors.removed, data := g.data.set y none }, hd, ⟨?_, ?_, hD⟩, ?_⟩
  · simp [hR.len]
  · intro z
    simp only [get_put hlt, hR.get z, List.mem_append, List.mem_singleton]
    by_cases h1 : z = y <;> by_cases h2 : z ∈ C <;> simp [h1, h2]
  · intro σ
    have hfm : Forest.onHier (Hier.forceMakeRemoved y "[consistency] the current node must be alive here") g =
        .ok () { g with hier := g.hier.put y Neighbors.removed } :=
      onHier_ok (updNbr_live hl _ _)
    unfold Forest.closeForce
    rw [M.run_bind, onForest_run (a := d) (g' := Forest.mk (g.hier.put y Neighbors.removed) (g.data.set y none))
      (by rw [M.run_bind, hfm]; exact htk)]

theorem removeForce_next (hm : Models f0 s) (ht : Tree.IsTree s.kids t)
    (hx : s.alive t.root = true) (done : List (Ev Nat)) (e : Ev Nat) (L : List (Ev Nat)) (g : Forest T)
    (hE : t.events = done ++ e :: L) (hR : RawKilled f0 (Tree.closes done) g) :
    Safe.nextOfNext g.hier t.root e = .ok L.head? := by
  rcases events_split hm ht hx hE with ⟨rfl, rfl⟩ | ⟨hne, e', L', rfl, hs⟩
  · exact safe_last _ _
  · refine safe_of_dft hne ?_
    rw [stepFwd_congr (h' := f0.hier), hs]; · rfl
    rw [hR.get, if_neg (not_closed hm ht hx hE)]

theorem removeForce_close (hook : Forest.Hook S T) (hm : Models f0 s) (ht : Tree.IsTree s.kids t)
    (hx : s.alive t.root = true) (done : List (Ev Nat)) (y : Nat) (L : List (Ev Nat)) (g : Forest T)
    (hE : t.events = done ++ .cls y :: L) (hR : RawKilled f0 (Tree.closes done) g) :
    ∃ d g', f0.getData y = some d ∧ RawKilled f0 (Tree.closes done ++ [y]) g' ∧
      ∀ σ, Forest.closeForce hook y (g, σ) = Forest.callHook hook d (g', σ) := by
  have hyC := not_closed hm ht hx hE
  refine closeForce_ok hook hm ?_ hyC hR
  refine Tree.mem_alive hm.valid ht hx ((Tree.mem_events_iff t y).2.1 ?_)
  rw [hE]; simp

theorem removeForce_spec (hook : Forest.Hook S T) (hm : Models f0 s) (ht : Tree.IsTree s.kids t)
    (hx : s.alive t.root = true) (σ : S) :
    ∃ f', match feed hook σ (t.postorder.filterMap f0.getData) with
      | (σ', none) =>
        Forest.removeLoop (Forest.closeForce hook) (Forest.removeFuel f0)
          { next := some (.opn t.root), root := t.root } (f0, σ) = .ok () (f', σ') ∧
        RawKilled f0 t.postorder f'
      | (σ', some k) =>
        Forest.removeLoop (Forest.closeForce hook) (Forest.removeFuel f0)
          { next := some (.opn t.root), root := t.root } (f0, σ) =
            .fail (.panic "hook panicked") (f', σ') ∧
        RawKilled f0 (t.postorder.take (k + 1)) f' := by
  have hfuel : t.events.length < Forest.removeFuel f0 := by
    have h2 := Tree.count_le_size hm.valid ht hx
    have h3 := hm.agrees.1
    have h4 : 2 * f0.hier.nbrs.length < Forest.removeFuel f0 := by unfold Forest.removeFuel; nlinarith
    rw [Tree.length_events]; omega
  have hhead : t.events.head? = some (.opn t.root) := by
    have := ends_events t
    unfold ends at this
    cases h : t.events.head? with
    | none => rw [h] at this; cases this
    | some a =>
      rw [h] at this
      cases h2 : t.events.getLast? with
      | none => rw [h2] at this; cases this
      | some b => rw [h2] at this; simp at this; rw [this.1]
  have := removeLoop_spec (hook := hook) (close := Forest.closeForce hook) (root := t.root) (f0 := f0)
    (E := t.events) (St := RawKilled f0) ?_ ?_ (Forest.removeFuel f0) t.events [] f0 σ rfl ?_ hfuel
  · rw [hhead, Tree.closes_events] at this
    simpa using this
  · exact removeForce_next hm ht hx
  · exact removeForce_close hook hm ht hx
  · exact ⟨rfl, by simp, ⟨rfl, by simp⟩⟩

/-- Clearing all records of a whole tree is killing it. -/
theorem RawKilled.models (hm : Models f0 s) (ht : Tree.IsTree s.kids t)
    (hroot : s.parent t.root = none) {g : Forest T}
    (hR : RawKilled f0 t.postorder g) : Models g (s.kill fun y => decide (y ∈ t.preorder)) := by
  have hcl : ∀ y p, s.parent y = some p →
      decide (y ∈ t.preorder) = decide (p ∈ t.preorder) := by
    intro y p hp
    rw [decide_eq_decide, Tree.mem_preorder_iff hm.valid ht, Tree.mem_preorder_iff hm.valid ht]
    constructor
    · intro h
      cases h with
      | refl => rw [hroot] at hp; cases hp
      | step h1 h2 => rw [hp] at h1; cases h1; exact h2
    · intro h; exact .step hp h
  refine .of_agrees (hm.valid.kill fun y p hp h => by rw [hcl y p hp]; exact h)
    (hm.agrees.kill hm.valid hcl hR.len ?_) ?_ ?_
  · intro y; rw [hR.get y]; simp [Tree.mem_postorder]
  · rw [hR.data.len, hm.dataLen]; rfl
  · intro y
    rw [hR.data.get y]
    simp only [Tree.mem_postorder, Shape.kill]
    by_cases h : y ∈ t.preorder
    · simp [h]
    · simp [h, hm.dataAlive]

end force

/-! ### `remove_hooked_panic_safe` -/

section safe
variable {f0 : Forest T} {S : Type} {t : Tree Nat}

theorem kill_isolated_closed (hv : s.Valid) {y : Nat} (hp : s.parent y = none) (hk : s.kids y = []) :
    ∀ z p, s.parent z = some p → decide (z = y) = decide (p = y) := by
  intro z p h
  have h1 : z ≠ y := fun e => by subst e; rw [hp] at h; cases h
  have h2 : p ≠ y := fun e => by
    subst e
    have := (hv.mem_kids z p).2 h
    rw [hk] at this; simp at this
  simp [h1, h2]

theorem closePanicSafe_ok (hook : Forest.Hook S T) (hm : Models f0 s) {C : List Nat} {y : Nat} {g : Forest T}
    (hy : s.alive y = true) (hyC : y ∉ C) (hkids : ∀ c ∈ s.kids y, c ∈ C)
    (hM : Models g (s.kill fun z => decide (z ∈ C))) (hD : DataKilled f0 C g) :
    ∃ d g', f0.getData y = some d ∧
      (Models g' (s.kill fun z => decide (z ∈ C ++ [y])) ∧ DataKilled f0 (C ++ [y]) g') ∧
      ∀ σ, Forest.closePanicSafe hook y (g, σ) = Forest.callHook hook d (g', σ) := by
  obtain ⟨d, hd⟩ := data_some hm hy
  have hya : (s.kill fun z => decide (z ∈ C)).alive y = true := by simp [Shape.kill, hy, hyC]
  have hk1 : (s.kill fun z => decide (z ∈ C)).kids y = [] := by
    simp only [Shape.kill, hyC, decide_false, Bool.false_eq_true, if_false]
    rw [List.filter_eq_nil_iff]; intro c hc; simp [hkids c hc]
  obtain ⟨g1, hdet, hM1, hdat1⟩ := forest_detach_models hM hya
  have hl : g.hier.live y := (hM.agrees.live_iff hM.valid y).2 hya
  have hfc : (g.hier.get y).firstChild = .ok none := by
    rw [hM.agrees.firstChild_get hM.valid hya, hk1]; rfl
  have hp1 : ((s.kill fun z => decide (z ∈ C)).detach y).parent y = none := Shape.detach_parent_self _
  have hk2 : ((s.kill fun z => decide (z ∈ C)).detach y).kids y = [] := by
    show List.erase _ y = []
    rw [hk1]; rfl
  have hl1 : g1.hier.live y := (hM1.agrees.live_iff hM1.valid y).2 hya
  have hget1 : g1.hier.get y = Neighbors.mk none (some y) none none := by
    rw [hM1.agrees.get_alive (x := y) hya, Shape.link_root hp1, hk2]; rfl
  have halone : (g1.hier.get y).isAlone = .ok true := by
    rw [hget1]; rfl
  have hD1 : DataKilled f0 C g1 := by
    refine ⟨by rw [hdat1]; exact hD.len, fun z => ?_⟩
    have : g1.getData z = g.getData z := by unfold Forest.getData; rw [hdat1]
    rw [this]; exact hD.get z
  obtain ⟨htk, hD2⟩ := hD1.take hyC hd (g1.hier.put y Neighbors.removed)
  have hmk : Forest.onHier (Hier.makeRemoved y "[consistency] the current node must be alive here") g1 =
      .ok () { g1 with hier := g1.hier.put y Neighbors.removed } := by
    apply onHier_ok
    simp only [Hier.makeRemoved, M.run_bind, nbrOf_live hl1, M.read, halone]
    simp only [Bool.not_true, Bool.false_eq_true, if_false]
    exact updNbr_live hl1 _ _
  refine ⟨d, { hier := g1.hier.put y Neighbors.removed, data := g1.data.set y none }, hd, ⟨?_, hD2⟩, ?_⟩
  · rw [← Shape.kill_detach_kill hm.valid]
    have hcl := kill_isolated_closed hM1.valid hp1 hk2
    refine .of_agrees (hM1.valid.kill fun z p hp h => by rw [hcl z p hp]; exact h)
      (hM1.agrees.kill hM1.valid hcl (by simp) ?_) ?_ ?_
    · intro z; rw [get_put (live_lt hl1)]; simp
    · simp [hM1.dataLen]; rfl
    · intro z
      rw [hD2.get z, Shape.kill_detach_kill hm.valid]
      simp only [Shape.kill]
      by_cases h : z ∈ C ++ [y]
      · simp [h]
      · simp [h, hm.dataAlive]
  · intro σ
    unfold Forest.closePanicSafe
    rw [M.run_bind, onForest_run (a := d) (g' := Forest.mk (g1.hier.put y Neighbors.removed) (g1.data.set y none))]
    have e1 : ∀ msg, Forest.onHier (Hier.nbrOf y msg) g = .ok (g.hier.get y) g := fun msg =>
      onHier_ok (nbrOf_live hl msg)
    have e2 : ∀ msg, Forest.onHier (Hier.nbrOf y msg) g1 = .ok (g1.hier.get y) g1 := fun msg =>
      onHier_ok (nbrOf_live hl1 msg)
    simp only [M.run_bind, e1, M.read, hfc, Option.isSome_none, Bool.false_eq_true, if_false, hdet, e2,
      halone, Bool.not_true, hmk]
    exact htk

/-- The nodes in `C` are killed. -/
structure SafeKilled (f0 : Forest T) (s : Shape) (C : List Nat) (g : Forest T) : Prop where
  models : Models g (s.kill fun z => decide (z ∈ C))
  data : DataKilled f0 C g

theorem removeSafe_next (hm : Models f0 s) (ht : Tree.IsTree s.kids t)
    (hx : s.alive t.root = true) (done : List (Ev Nat)) (e : Ev Nat) (L : List (Ev Nat)) (g : Forest T)
    (hE : t.events = done ++ e :: L) (hK : SafeKilled f0 s (Tree.closes done) g) :
    Safe.nextOfNext g.hier t.root e = .ok L.head? := by
  have hv := hm.valid
  have hnd := (dft_walk hm ht hx).nodup
  obtain ⟨hM, _⟩ := hK
  have hnc := not_closed hm ht hx hE
  rcases events_split hm ht hx hE with ⟨rfl, rfl⟩ | ⟨hne, e', L', rfl, hs⟩
  · exact safe_last _ _
  refine safe_of_dft hne ?_
  rw [List.head?_cons, ← hs]
  have later : ∀ z, [e, Ev.cls z].Sublist t.events → z ∉ Tree.closes done := by
    intro z hz hzc
    rw [hE] at hz hnd
    have h1 := Tree.pair_right hnd hz
    rw [Tree.mem_closes] at hzc
    exact (List.nodup_append.1 hnd).2.2 _ hzc _ (List.mem_cons_of_mem _ h1) rfl
  have hmem : e ∈ t.events := by rw [hE]; simp
  have hyt := Tree.node_mem_preorder hmem
  have hya : s.alive e.node = true := Tree.mem_alive hv ht hx hyt
  have hya' : (s.kill fun z => decide (z ∈ Tree.closes done)).alive e.node = true := by
    simp [Shape.kill, hya, hnc]
  cases e with
  | opn y =>
    simp only [Ev.node] at hnc hyt hya hya'
    have hk : (s.kill fun z => decide (z ∈ Tree.closes done)).kids y = s.kids y := by
      simp only [Shape.kill, hnc, decide_false, Bool.false_eq_true, if_false]
      rw [List.filter_eq_self]
      intro c hc
      have := later c (Tree.kid_order t ht y c hyt hc).1
      simp [this]
    simp only [Dft.stepFwd, travNbr_alive hM.agrees hM.valid hya', travNbr_alive hm.agrees hv hya,
      hM.agrees.firstChild_get hM.valid hya', hm.agrees.firstChild_get hv hya, hk]
  | cls y =>
    simp only [Ev.node] at hnc hyt hya hya'
    have hyr : y ≠ t.root := fun e => hne (by rw [e])
    obtain ⟨p, hp, hpt⟩ : ∃ p, s.parent y = some p ∧ p ∈ t.preorder := by
      rw [Tree.mem_preorder_iff hv ht] at hyt
      cases hyt with
      | refl => exact absurd rfl hyr
      | step h1 h2 => exact ⟨_, h1, (Tree.mem_preorder_iff hv ht _).2 h2⟩
    have hyk := (hv.mem_kids y p).2 hp
    have hpn := later p (Tree.kid_order t ht p y hpt hyk).2
    have hparent : (s.kill fun z => decide (z ∈ Tree.closes done)).parent y = s.parent y := by
      simp [Shape.kill, hnc]
    have hsplit := before_after hyk
    have hnext : (s.kill fun z => decide (z ∈ Tree.closes done)).next y = s.next y := by
      unfold Shape.next
      rw [Shape.sibs_child (s := s.kill _) (by rw [hparent, hp]), Shape.sibs_child hp]
      simp only [Shape.kill, hpn, decide_false, Bool.false_eq_true, if_false]
      have hafter : (after (s.kids p) y).filter (fun z => !decide (z ∈ Tree.closes done)) =
          after (s.kids p) y := by
        rw [List.filter_eq_self]
        intro z hz
        have := later z (Tree.sib_order t ht p y z _ _ hpt hsplit.symm hz)
        simp [this]
      conv_lhs => rw [← hsplit]
      rw [List.filter_append, List.filter_cons_of_pos (by simp [hnc]), hafter, after_append_right,
        after_cons]
      · simp
      · intro hmem2
        exact not_mem_before _ _ (List.mem_of_mem_filter hmem2)
    simp only [Dft.stepFwd, travNbr_alive hM.agrees hM.valid hya', travNbr_alive hm.agrees hv hya,
      hM.agrees.nextSibling_get hM.valid hya', hm.agrees.nextSibling_get hv hya, hnext,
      hM.agrees.getParent_get hM.valid hya', hm.agrees.getParent_get hv hya, hparent]

theorem removeSafe_close (hook : Forest.Hook S T) (hm : Models f0 s) (ht : Tree.IsTree s.kids t)
    (hx : s.alive t.root = true) (done : List (Ev Nat)) (y : Nat) (L : List (Ev Nat)) (g : Forest T)
    (hE : t.events = done ++ .cls y :: L) (hK : SafeKilled f0 s (Tree.closes done) g) :
    ∃ d g', f0.getData y = some d ∧ SafeKilled f0 s (Tree.closes done ++ [y]) g' ∧
      ∀ σ, Forest.closePanicSafe hook y (g, σ) = Forest.callHook hook d (g', σ) := by
  have hv := hm.valid
  have hnd := (dft_walk hm ht hx).nodup
  obtain ⟨hM, hD⟩ := hK
  have hyC := not_closed hm ht hx hE
  have hyt : y ∈ t.preorder := (Tree.mem_events_iff t y).2.1 (by rw [hE]; simp)
  have hkk : ∀ c ∈ s.kids y, c ∈ Tree.closes done := by
    intro c hc
    rw [Tree.mem_closes]
    have h1 := (Tree.kid_order t ht y c hyt hc).2
    rw [hE] at h1 hnd
    refine Tree.pair_left hnd ?_ h1
    intro e
    have : c = y := by cases e; rfl
    subst this
    exact hv.self_not_kid hc
  obtain ⟨d, g', h1, h2, h3⟩ := closePanicSafe_ok hook hm (Tree.mem_alive hv ht hx hyt) hyC hkk hM hD
  exact ⟨d, g', h1, ⟨h2.1, h2.2⟩, h3⟩

theorem removeSafe_spec (hook : Forest.Hook S T) (hm : Models f0 s) (ht : Tree.IsTree s.kids t)
    (hx : s.alive t.root = true) (σ : S) :
    ∃ f', match feed hook σ (t.postorder.filterMap f0.getData) with
      | (σ', none) =>
        Forest.removeLoop (Forest.closePanicSafe hook) (Forest.removeFuel f0)
          { next := some (.opn t.root), root := t.root } (f0, σ) = .ok () (f', σ') ∧
        SafeKilled f0 s t.postorder f'
      | (σ', some k) =>
        Forest.removeLoop (Forest.closePanicSafe hook) (Forest.removeFuel f0)
          { next := some (.opn t.root), root := t.root } (f0, σ) =
            .fail (.panic "hook panicked") (f', σ') ∧
        SafeKilled f0 s (t.postorder.take (k + 1)) f' := by
  have hfuel : t.events.length < Forest.removeFuel f0 := by
    have h2 := Tree.count_le_size hm.valid ht hx
    have h3 := hm.agrees.1
    have h4 : 2 * f0.hier.nbrs.length < Forest.removeFuel f0 := by unfold Forest.removeFuel; nlinarith
    rw [Tree.length_events]; omega
  have hhead : t.events.head? = some (.opn t.root) := by
    have := Tree.head?_gev (o := fun x _ => Ev.opn x) (c := fun x _ => Ev.cls x) (lim := fun _ => false) 0 t
    rwa [Tree.gev_events] at this
  have := removeLoop_spec (hook := hook) (close := Forest.closePanicSafe hook) (root := t.root) (f0 := f0)
    (E := t.events)
    (St := SafeKilled f0 s)
    ?_ ?_ (Forest.removeFuel f0) t.events [] f0 σ rfl ?_ hfuel
  · rw [hhead, Tree.closes_events] at this
    simpa using this
  · exact removeSafe_next hm ht hx
  · exact removeSafe_close hook hm ht hx
  · refine ⟨?_, ⟨rfl, by simp⟩⟩
    have : (s.kill fun z => decide (z ∈ Tree.closes ([] : List (Ev Nat)))) = s := by
      cases s; simp [Shape.kill]
    rw [this]; exact hm

end safe

/-! ### The public functions -/

section api
variable {S : Type} {t : Tree Nat}

theorem kill_ext {C D : List Nat} (h : ∀ z, z ∈ C ↔ z ∈ D) :
    (s.kill fun z => decide (z ∈ C)) = s.kill fun z => decide (z ∈ D) := by
  congr 1; funext z; exact decide_eq_decide.2 (h z)

/-- The start of the removal functions: detach, then run the loop from the opening of the node. -/
theorem removeWith_run (close : Nat → M (Forest T × S) Unit) (hm : Models f s) {x : Nat}
    (hx : s.alive x = true) (σ : S) :
    ∃ f0, Models f0 (s.detach x) ∧ f0.data = f.data ∧
      Forest.removeWith close x (f, σ) =
        Forest.removeLoop close (Forest.removeFuel f0) { next := some (.opn x), root := x } (f0, σ) := by
  obtain ⟨f0, hd, hm0, hdat⟩ := forest_detach_models hm hx
  refine ⟨f0, hm0, hdat, ?_⟩
  have ha0 : f0.hier.isAlive x = true := by rw [hm0.hierAlive]; exact hx
  have ha : f.hier.isAlive x = true := by rw [hm.hierAlive]; exact hx
  simp only [Forest.removeWith, M.run_bind, M.read, ha, Bool.not_true, Bool.false_eq_true, if_false,
    onForest_run hd, Safe.new, ha0]

theorem removeWith_dead (close : Nat → M (Forest T × S) Unit) (hm : Models f s) {x : Nat}
    (hx : s.alive x = false) (σ : S) : Forest.removeWith close x (f, σ) = .ok () (f, σ) := by
  have ha : f.hier.isAlive x = false := by rw [hm.hierAlive]; exact hx
  simp [Forest.removeWith, M.read, ha]

theorem getData_of_data {f f0 : Forest T} (h : f0.data = f.data) : f0.getData = f.getData := by
  funext y; unfold Forest.getData; rw [h]

/-- `remove_hooked_panic_safe`, every outcome. -/
theorem removeHookedPanicSafe_spec (hook : Forest.Hook S T) (hm : Models f s)
    (ht : Tree.IsTree s.kids t) (hx : s.alive t.root = true) (σ : S) :
    ∃ f', match feed hook σ (t.postorder.filterMap f.getData) with
      | (σ', none) =>
        Forest.removeHookedPanicSafe hook t.root (f, σ) = .ok () (f', σ') ∧
        Models f' (s.kill fun z => decide (z ∈ t.preorder)) ∧
        ∀ y, f'.getData y = if y ∈ t.preorder then none else f.getData y
      | (σ', some k) =>
        Forest.removeHookedPanicSafe hook t.root (f, σ) = .fail (.panic "hook panicked") (f', σ') ∧
        Models f' ((s.detach t.root).kill fun z => decide (z ∈ t.postorder.take (k + 1))) ∧
        ∀ y, f'.getData y = if y ∈ t.postorder.take (k + 1) then none else f.getData y := by
  obtain ⟨f0, hm0, hdat, hrun⟩ := removeWith_run (Forest.closePanicSafe hook) hm hx σ
  obtain ⟨f', h⟩ := removeSafe_spec hook hm0 (Tree.isTree_detach hm.valid ht) hx σ
  refine ⟨f', ?_⟩
  rw [getData_of_data hdat] at h
  unfold Forest.removeHookedPanicSafe
  rw [hrun]
  have hx' : decide (t.root ∈ t.preorder) = true := by simp [Tree.root_mem_preorder]
  split at h
  · refine ⟨h.1, ?_, ?_⟩
    · rw [← Shape.detach_kill hm.valid (x := t.root) (by simpa using hx'),
        ← kill_ext (fun z => Tree.mem_postorder)]
      exact h.2.models
    · intro y; rw [h.2.data.get y, getData_of_data hdat]; simp [Tree.mem_postorder]
  · exact ⟨h.1, h.2.models, fun y => by rw [h.2.data.get y, getData_of_data hdat]⟩

/-- `remove_hooked`, every outcome; after a panicking hook the records are as described by
`RawKilled`. -/
theorem removeHooked_spec (hook : Forest.Hook S T) (hm : Models f s)
    (ht : Tree.IsTree s.kids t) (hx : s.alive t.root = true) (σ : S) :
    ∃ f', match feed hook σ (t.postorder.filterMap f.getData) with
      | (σ', none) =>
        Forest.removeHooked hook t.root (f, σ) = .ok () (f', σ') ∧
        Models f' (s.kill fun z => decide (z ∈ t.preorder)) ∧
        ∀ y, f'.getData y = if y ∈ t.preorder then none else f.getData y
      | (σ', some k) =>
        Forest.removeHooked hook t.root (f, σ) = .fail (.panic "hook panicked") (f', σ') ∧
        (∃ f0, Models f0 (s.detach t.root) ∧ f0.data = f.data ∧
          RawKilled f0 (t.postorder.take (k + 1)) f') ∧
        ∀ y, f'.getData y = if y ∈ t.postorder.take (k + 1) then none else f.getData y := by
  obtain ⟨f0, hm0, hdat, hrun⟩ := removeWith_run (Forest.closeForce hook) hm hx σ
  have ht0 := Tree.isTree_detach hm.valid ht
  obtain ⟨f', h⟩ := removeForce_spec hook hm0 ht0 hx σ
  refine ⟨f', ?_⟩
  rw [getData_of_data hdat] at h
  unfold Forest.removeHooked
  rw [hrun]
  have hx' : decide (t.root ∈ t.preorder) = true := by simp [Tree.root_mem_preorder]
  split at h
  · refine ⟨h.1, ?_, ?_⟩
    · rw [← Shape.detach_kill hm.valid (x := t.root) (by simpa using hx')]
      exact h.2.models hm0 ht0 (Shape.detach_parent_self _)
    · intro y; rw [h.2.data.get y, getData_of_data hdat]; simp [Tree.mem_postorder]
  · exact ⟨h.1, ⟨f0, hm0, hdat, h.2⟩, fun y => by rw [h.2.data.get y, getData_of_data hdat]⟩

/-- Two forests with the same shape and data are equal. -/
theorem forest_ext {g g' : Forest T} {s : Shape} (h1 : Models g s) (h2 : Models g' s)
    (hd : ∀ y, g.getData y = g'.getData y) : g = g' := by
  have e1 := h1.agrees.unique h2.agrees
  have e2 : g.data = g'.data := by
    apply List.ext_getElem?
    intro i
    have := hd i
    unfold Forest.getData at this
    by_cases hi : i < s.size
    · have a1 : i < g.data.length := by rw [h1.dataLen]; exact hi
      have a2 : i < g'.data.length := by rw [h2.dataLen]; exact hi
      rw [List.getElem?_eq_getElem a1, List.getElem?_eq_getElem a2] at this ⊢
      simpa using this
    · rw [List.getElem?_eq_none (by rw [h1.dataLen]; omega),
        List.getElem?_eq_none (by rw [h2.dataLen]; omega)]
  cases g; cases g'; simp at e1 e2; rw [e1, e2]

end api

end Treena
