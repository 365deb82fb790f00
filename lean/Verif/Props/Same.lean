import Verif.Props.Motion
/-!
# Forests are determined by what can be seen (C61), and so are the results of the different ways to build (C59)
-/
set_option autoImplicit false

namespace Treena
open Shape
variable {T : Type} {f g : Forest T} {s s' : Shape}

/-- **C61**.  There is no hidden state: two consistent forests that have issued the same number of IDs and answer
`is_alive`, `data` and the five neighbour accessors alike are the same forest, so that every further call
(whatever its outcome) goes the same in both. -/
theorem C61_no_hidden_state (hc : Consistent f) (hc' : Consistent g) (hi : f.issued = g.issued)
    (hd : ∀ x, f.getData x = g.getData x)
    (hp : ∀ x, f.isAlive x = true → f.parentId x = g.parentId x ∧ f.nextSiblingId x = g.nextSiblingId x ∧
      f.prevSiblingId x = g.prevSiblingId x ∧ f.firstChildId x = g.firstChildId x ∧
      f.lastChildId x = g.lastChildId x) :
    f = g := by
  obtain ⟨s, hm⟩ := hc
  obtain ⟨s', hm'⟩ := hc'
  have hd1 := hm.describes
  have hd2 := hm'.describes
  have hal : ∀ x, s.alive x = s'.alive x := fun x => by rw [← hd1.data, ← hd2.data, hd]
  have hsz : s.size = s'.size := by rw [← hm.dataLen, ← hm'.dataLen]; exact hi
  have hdat : f.data = g.data := by
    apply List.ext_getElem?
    intro i
    have := hd i
    unfold Forest.getData at this
    by_cases hi' : i < s.size
    · rw [List.getElem?_eq_getElem (by rw [hm.dataLen]; exact hi'),
        List.getElem?_eq_getElem (by rw [hm'.dataLen, ← hsz]; exact hi')] at this ⊢
      simpa using this
    · rw [List.getElem?_eq_none (by rw [hm.dataLen]; omega), List.getElem?_eq_none (by rw [hm'.dataLen]; omega)]
  have hent : ∀ x, s.entry x = s'.entry x := by
    intro x
    unfold Shape.entry
    rw [← hal x]
    by_cases hx : s.alive x = true
    · rw [if_pos hx, if_pos hx]
      have hx' : s'.alive x = true := by rw [← hal]; exact hx
      obtain ⟨h1, h2, h3, h4, h5⟩ := hp x (by rw [hm.isAlive]; exact hx)
      rw [hd1.parent x hx, hd2.parent x hx'] at h1
      rw [hd1.next x hx, hd2.next x hx'] at h2
      rw [hd1.prev x hx, hd2.prev x hx'] at h3
      rw [hd1.first x hx, hd2.first x hx'] at h4
      simp only [Except.ok.injEq] at h1 h2 h3 h4
      have hl : (s.sibs x).getLast? = (s'.sibs x).getLast? := by
        unfold Shape.sibs
        rw [← h1]
        cases hpx : s.parent x with
        | none => rfl
        | some p =>
          have hpa := (hm.valid.parent_alive _ _ hpx).2
          have h := (hp p (by rw [hm.isAlive]; exact hpa)).2.2.2.2
          rw [hd1.last p hpa, hd2.last p (by rw [← hal]; exact hpa)] at h
          simpa using h
      unfold Shape.link
      rw [h1, h2, h3, hl]
      unfold Shape.first
      rw [h4]
    · rw [if_neg hx, if_neg hx]
  have hh : f.hier = g.hier := by
    have : f.hier.nbrs = g.hier.nbrs := by
      apply List.ext_getElem?
      intro i
      by_cases hi' : i < s.size
      · rw [hm.repr.2 i hi', hm'.repr.2 i (by rw [← hsz]; exact hi'), hent]
      · rw [List.getElem?_eq_none (by rw [hm.repr.1]; omega), List.getElem?_eq_none (by rw [hm'.repr.1]; omega)]
    cases hfe : f.hier; cases hge : g.hier
    rw [hfe, hge] at this
    simp at this; rw [this]
  cases f; cases g
  simp at hh hdat
  rw [hh, hdat]

/-- Two different histories with the same outcome. -/
example : Op.run 9 (Forest.new : Forest Nat) [.createRoot 1, .createInsert 2 (.lastChildOf 0), .createInsert 3 (.lastChildOf 0)] =
    Op.run 9 Forest.new [.createRoot 1, .createRoot 2, .createRoot 3, .insert 2 (.firstChildOf 0),
      .insert 1 (.previousSiblingOf 2)] := by
  refine C61_no_hidden_state (run_careful (cap := 9) _ _ new_consistent ?_) (run_careful (cap := 9) _ _ new_consistent ?_)
    (by decide) (fun x => ?_) (fun x => ?_)
  · exact ⟨id, id, id, trivial⟩
  · exact ⟨id, id, id, (by simp only [Op.Harmful, InPlace]; decide), (by simp only [Op.Harmful, InPlace]; decide), trivial⟩
  · rcases x with _ | _ | _ | x <;> rfl
  · rcases x with _ | _ | _ | x
    · decide
    · decide
    · decide
    · intro h; cases h

namespace Tree
mutual
theorem map_facts {α β : Type} (h : α → β) : ∀ (t : Tree α) (b : Nat), (t.map h).count = t.count ∧
    (t.map h).number b = t.number b ∧ (t.map h).preorder = t.preorder.map h
  | .node a ts, b => by
    obtain ⟨h1, h2, h3⟩ := mapL_facts h ts (b + 1)
    simp [map, count, number, preorder, h1, h2, h3]
theorem mapL_facts {α β : Type} (h : α → β) : ∀ (ts : List (Tree α)) (b : Nat), countL (mapL h ts) = countL ts ∧
    numberL b (mapL h ts) = numberL b ts ∧ preorderL (mapL h ts) = (preorderL ts).map h
  | [], b => by simp [mapL, countL, numberL, preorderL]
  | t :: ts, b => by
    obtain ⟨h1, h2, h3⟩ := map_facts h t b
    obtain ⟨h4, h5, h6⟩ := mapL_facts h ts (b + t.count)
    simp [mapL, countL, numberL, preorderL, h1, h2, h3, h4, h5, h6]
end
end Tree

/-- The nested calls that describe a given tree. -/
def NestCall.ofTree : Tree T → NestCall T
  | .node d ts => .createTree d (ts.attach.map fun ⟨u, _⟩ => NestCall.ofTree u)
termination_by t => sizeOf t
decreasing_by simp_wf; have := List.sizeOf_lt_of_mem ‹_›; omega

theorem planted_unique {t : Tree T} (h : Planted f s t g s') {g2 : Forest T} {s2 : Shape} (h2 : Planted f s t g2 s2) :
    g2 = g := by
  have hv := h.grown.models.valid
  have hv2 := h2.grown.models.valid
  have hsz : s2.size = s'.size := h2.size.trans h.size.symm
  have hal : s2.alive = s'.alive := by
    funext x
    by_cases h3 : x < s.size
    · rw [h.grown.alive x h3, h2.grown.alive x h3]
    · by_cases h4 : x < s'.size
      · rw [h.alive x (by omega) h4, h2.alive x (by omega) (by omega)]
      · have a : s'.alive x ≠ true := fun e => h4 (hv.alive_lt x e)
        have b : s2.alive x ≠ true := fun e => h4 (by have := hv2.alive_lt x e; omega)
        simp only [Bool.not_eq_true] at a b
        rw [a, b]
  have hk : s2.kids = s'.kids := by
    funext x
    by_cases h3 : x < s.size
    · rw [h.grown.kids x h3, h2.grown.kids x h3]
    · by_cases h4 : x < s'.size
      · refine (Tree.isTree_agree _ h.tree h2.tree x ?_).symm
        rw [Tree.preorder_number, List.mem_range'_1]
        exact ⟨by omega, by rw [← h.size]; exact h4⟩
      · rw [hv.fresh x (by omega), hv2.fresh x (by omega)]
  have hp : s2.parent = s'.parent := by
    funext x
    have key : ∀ p, s2.parent x = some p ↔ s'.parent x = some p := fun p => by
      rw [← hv.mem_kids, ← hv2.mem_kids, hk]
    exact Option.ext key
  have hs : s2 = s' := by
    cases s2; cases s'; simp at *; exact ⟨hsz, hal, hp, hk⟩
  subst hs
  exact forest_ext h2.grown.models h.grown.models fun y => by unfold Forest.getData; rw [h2.data, h.data]

theorem copied_planted {cl : T → Option T} {dat : Nat → Option T} {t : Tree Nat} {u : Tree T}
    (h : Copied f s cl dat t g s') (hu : t.map (fun y => (dat y).bind cl) = u.map some) : Planted f s u g s' := by
  obtain ⟨h1, h2, h3⟩ := Tree.map_facts (fun y => (dat y).bind cl) t s.size
  obtain ⟨h4, h5, h6⟩ := Tree.map_facts (some : T → Option T) u s.size
  rw [hu] at h1 h2 h3
  rw [h4] at h1; rw [h5] at h2; rw [h6] at h3
  refine ⟨h.grown, by rw [h1]; exact h.size, by rw [h2]; exact h.tree, h.root, h.alive, ?_⟩
  rw [h.data, copies, h3]

theorem map_count_clones {cl : T → Option T} {dat : Nat → Option T} {t : Tree Nat} {u : Tree T}
    (hu : t.map (fun y => (dat y).bind cl) = u.map some) :
    t.count = u.count ∧ ∀ y ∈ t.preorder, clones cl dat y = true := by
  obtain ⟨h1, _, h3⟩ := Tree.map_facts (fun y => (dat y).bind cl) t 0
  obtain ⟨h4, _, h6⟩ := Tree.map_facts (some : T → Option T) u 0
  rw [hu] at h1 h3
  rw [h4] at h1; rw [h6] at h3
  refine ⟨h1.symm, fun y hy => ?_⟩
  have : (dat y).bind cl ∈ u.preorder.map some := by rw [h3]; exact List.mem_map_of_mem hy
  obtain ⟨d, _, hd⟩ := List.mem_map.1 this
  unfold clones; rw [← hd]; rfl

mutual
theorem NestCall.ofTree_spec : ∀ u : Tree T, (NestCall.ofTree u).trees = [u] ∧ (NestCall.ofTree u).calm = true
  | .node d ts => by
    obtain ⟨h1, h2⟩ := NestCall.ofTrees_spec ts
    rw [NestCall.ofTree]
    simp only [List.map_attach_eq_pmap, List.pmap_eq_map]
    simp [NestCall.trees, NestCall.calm, h1, h2]
theorem NestCall.ofTrees_spec : ∀ us : List (Tree T), NestCall.treesL (us.map NestCall.ofTree) = us ∧
    NestCall.calmL (us.map NestCall.ofTree) = true
  | [] => by simp [NestCall.treesL, NestCall.calmL]
  | u :: us => by
    obtain ⟨h1, h2⟩ := NestCall.ofTree_spec u
    obtain ⟨h3, h4⟩ := NestCall.ofTrees_spec us
    simp [NestCall.treesL, NestCall.calmL, h1, h2, h3, h4]
end

/-- **C59**.  Given enough IDs, there is one forest `g` and one root ID such that every way of making a tree with
data `u` ends there: any nested-closure description of `u`, any sequence of chain-builder calls drawing `u`, and
copying any tree (of this or another forest) whose cloned data form `u`. -/
theorem C59_one_result (hm : Models f s) {cap : Nat} (u : Tree T) (hcap : s.size + u.count ≤ cap) :
    ∃ g, (∀ d calls, NestCall.calmL calls = true → Tree.node d (NestCall.treesL calls) = u →
        nestBuild cap d calls f = .ok s.size g) ∧
      (∀ d calls c, (Cursor.mk ⟨s.size, d, []⟩ []).steps cap calls = some c → c.close = u →
        ∃ b b' : Chain T, Chain.new cap d f = .ok b b.forest ∧ ChainCall.execL cap calls b = .ok () b' ∧
          b'.rootId = s.size ∧ b'.forest = g) ∧
      (∀ cl t, Tree.IsTree s.kids t → s.alive t.root = true →
        t.map (fun y => (f.getData y).bind cl) = u.map some →
        Forest.cloneLocalTree cap cl t.root f = .ok s.size g) ∧
      (∀ fs ss cl t, Models fs ss → Tree.IsTree ss.kids t → ss.alive t.root = true →
        t.map (fun y => (fs.getData y).bind cl) = u.map some →
        Forest.cloneForeignTree cap cl fs t.root f = .ok s.size g) := by
  obtain ⟨d0, us⟩ := u
  have hof := NestCall.ofTrees_spec us
  obtain ⟨g, s', _, _, _, hpl⟩ := C31_nest_builder hm cap d0 (us.map NestCall.ofTree) hof.2 (by rw [hof.1]; exact hcap)
  rw [hof.1] at hpl
  refine ⟨g, ?_, ?_, ?_, ?_⟩
  · intro d calls h1 h2
    obtain ⟨g', s2, h3, _, _, h4⟩ := C31_nest_builder hm cap d calls h1 (by rw [h2]; exact hcap)
    rw [h2] at h4
    rw [h3, planted_unique hpl h4]
  · intro d calls c h1 h2
    obtain ⟨b, h3, _, _, h4⟩ := C32_chain_builder hm cap (by simp only [Tree.count] at hcap; omega) d calls
    rw [h1] at h4
    obtain ⟨b', s2, h5, h6, _, _, _, h7⟩ := h4
    rw [h2] at h7
    exact ⟨b, b', h3, h5, h6, planted_unique hpl h7⟩
  · intro cl t ht hx hu
    obtain ⟨hc, hcl⟩ := map_count_clones hu
    obtain ⟨g', s2, h1, h2⟩ := ((noHook_outcome (cloneLocal_spec (cap := cap) (cl := cl) hm ht hx ())).1 hcl).1 (by omega)
    rw [planted_unique hpl (copied_planted h2 hu)] at h1; exact h1
  · intro fs ss cl t hms ht hx hu
    obtain ⟨hc, hcl⟩ := map_count_clones hu
    obtain ⟨g', s2, h1, h2⟩ :=
      ((noHook_outcome (cloneForeign_spec (cap := cap) (cl := cl) hm hms ht hx ())).1 hcl).1 (by omega)
    rw [planted_unique hpl (copied_planted h2 hu)] at h1; exact h1

/-- Copying the subtree of 2 in the sample is the same as building it by nested calls or by a chain. -/
example : ∃ g, Forest.cloneLocalTree 100 some 2 Sample.built = .ok 8 g ∧
    nestBuild 100 12 [.addChild 14, .addChild 15] Sample.built = .ok 8 g ∧
    ∃ b b', Chain.new 100 12 Sample.built = .ok b b.forest ∧
      ChainCall.execL 100 [.child 14, .sibling 15, .parent] b = .ok () b' ∧ b'.rootId = 8 ∧ b'.forest = g := by
  obtain ⟨g, h1, h2, h3, _⟩ := C59_one_result Sample.models (cap := 100) (.node 12 [.node 14 [], .node 15 []]) (by decide)
  refine ⟨g, h3 some Sample.tree2 Sample.isTree2 rfl rfl, h1 12 _ rfl rfl, h2 12 _ _ rfl rfl⟩

end Treena
