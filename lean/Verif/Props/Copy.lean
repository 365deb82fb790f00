import Verif.Proof.PrintSame
import Verif.Props.Same
import Verif.Props.SampleRun
/-!
# C56: a copy is traversed and printed as its source
-/
set_option autoImplicit false

namespace Treena
open Shape
variable {T : Type} {f : Forest T} {s : Shape}

namespace Tree
mutual
theorem number_map (ρ : Nat → Nat) : ∀ (t : Tree Nat) (b : Nat), (∀ (i : Nat) y, t.preorder[i]? = some y → ρ y = b + i) →
    t.number b = t.map ρ
  | .node a ts, b, h => by
    simp only [number, map, node.injEq]
    refine ⟨(h 0 a (by simp [preorder])).symm, numberL_map ρ ts (b + 1) fun i y hy => ?_⟩
    rw [h (i + 1) y (by simpa [preorder] using hy)]; omega
theorem numberL_map (ρ : Nat → Nat) : ∀ (ts : List (Tree Nat)) (b : Nat),
    (∀ (i : Nat) y, (preorderL ts)[i]? = some y → ρ y = b + i) → numberL b ts = mapL ρ ts
  | [], b, h => rfl
  | t :: ts, b, h => by
    simp only [numberL, mapL, List.cons.injEq]
    refine ⟨number_map ρ t b fun i y hy => ?_, numberL_map ρ ts (b + t.count) fun i y hy => ?_⟩
    · refine h i y ?_
      rw [preorderL, List.getElem?_append_left (List.getElem?_eq_some_iff.1 hy).1]; exact hy
    · rw [h (t.count + i) y ?_]
      · omega
      · rw [preorderL, List.getElem?_append_right (by rw [length_preorder]; omega), length_preorder,
          Nat.add_sub_cancel_left]
        exact hy
end

mutual
theorem level_map {α β : Type} (h : α → β) : ∀ (d : Nat) (t : Tree α), (t.map h).level d = (t.level d).map h
  | 0, .node a ts => by simp [map, level]
  | d + 1, .node a ts => by simp [map, level, levelL_map h d ts]
theorem levelL_map {α β : Type} (h : α → β) : ∀ (d : Nat) (ts : List (Tree α)), levelL d (mapL h ts) = (levelL d ts).map h
  | _, [] => by simp [mapL, levelL]
  | d, t :: ts => by simp [mapL, levelL, level_map h d t, levelL_map h d ts]
end

mutual
theorem height_map {α β : Type} (h : α → β) : ∀ t : Tree α, (t.map h).height = t.height
  | .node a ts => by simp [map, height, heightL_map h ts]
theorem heightL_map {α β : Type} (h : α → β) : ∀ ts : List (Tree α), heightL (mapL h ts) = heightL ts
  | [] => rfl
  | t :: ts => by simp [mapL, heightL, height_map h t, heightL_map h ts]
end

theorem bfs_map {α β : Type} (h : α → β) (t : Tree α) : (t.map h).bfs = t.bfs.map fun q => (h q.1, q.2) := by
  unfold bfs
  rw [height_map, List.map_flatMap]
  congr 1
  funext d
  rw [level_map, List.map_map, List.map_map]
  rfl
end Tree

/-- `x` of the forest `fs` and its copy `y` in the forest `g` look alike: `ρ` renames the nodes below `x`, one to one,
to nodes that did not exist in the forest `f` before; depth-first and breadth-first traversals correspond under it, item for
item; each copy holds the clone of the datum; and if clones are displayed as their originals, `debug_print` writes the
same to every sink. -/
structure Alike (um : Nat) (cl : T → Option T) (f fs g : Forest T) (x y : Nat) (ρ : Nat → Nat) (dfs : List (Ev Nat))
    (bfs : List (Nat × Nat)) : Prop where
  root : ρ x = y
  dfsSrc : ∃ st, fs.depthFirstTraverse x = .ok st ∧ ∀ n, pull fs.dftNext n st = .ok (pulls dfs n)
  dfsCopy : ∃ st, g.depthFirstTraverse y = .ok st ∧ ∀ n, pull g.dftNext n st = .ok (pulls (dfs.map (Ev.map ρ)) n)
  bfsSrc : ∃ st, Forest.breadthFirstTraverse um fs x = .ok st ∧
    ∀ n, pull (Forest.bftNext um fs) n st = .ok (pulls bfs n)
  bfsCopy : ∃ st, Forest.breadthFirstTraverse um g y = .ok st ∧
    ∀ n, pull (Forest.bftNext um g) n st = .ok (pulls (bfs.map fun q => (ρ q.1, q.2)) n)
  fresh : ∀ z, Ev.opn z ∈ dfs → f.issued ≤ ρ z ∧ f.isAlive (ρ z) = false ∧ g.isAlive (ρ z) = true
  inj : ∀ z z', Ev.opn z ∈ dfs → Ev.opn z' ∈ dfs → ρ z = ρ z' → z = z'
  data : ∀ z, Ev.opn z ∈ dfs → g.getData (ρ z) = (fs.getData z).bind cl
  print : ∀ (S : Type) (put : S → Text → Except S S) (disp : T → Fmt),
    (∀ d d', cl d = some d' → disp d' = disp d) → g.debugPrint put disp y = fs.debugPrint put disp x

theorem copied_alike (um : Nat) {cl : T → Option T} {fs g : Forest T} {ss s' : Shape} {t : Tree Nat}
    (hm : Models f s) (hms : Models fs ss) (ht : Tree.IsTree ss.kids t) (hx : ss.alive t.root = true)
    (hcl : ∀ y ∈ t.preorder, clones cl fs.getData y = true) (h : Copied f s cl fs.getData t g s') :
    ∃ ρ dfs bfs, Alike um cl f fs g t.root s.size ρ dfs bfs := by
  let ρ : Nat → Nat := fun y => s.size + t.preorder.idxOf y
  have hnd := Tree.preorder_nodup hms.valid t ht
  have hidx : ∀ (i : Nat) y, t.preorder[i]? = some y → ρ y = s.size + i := by
    intro i y hy
    obtain ⟨hi, hy⟩ := List.getElem?_eq_some_iff.1 hy
    show s.size + t.preorder.idxOf y = s.size + i
    rw [← hy, hnd.idxOf_getElem]
  have hlt : ∀ y ∈ t.preorder, t.preorder.idxOf y < t.count := fun y hy => by
    rw [← Tree.length_preorder]; exact List.idxOf_lt_length_of_mem hy
  have hnum : t.number s.size = t.map ρ := Tree.number_map ρ t s.size hidx
  have htr : Tree.IsTree s'.kids (t.map ρ) := by rw [← hnum]; exact h.tree
  have hroot : ρ t.root = s.size := by
    have := hidx 0 t.root (by cases t; simp [Tree.preorder, Tree.root])
    simpa using this
  have hal : ∀ y ∈ t.preorder, s'.alive (ρ y) = true := fun y hy =>
    h.alive _ (Nat.le_add_right _ _) (by
      rw [h.size]; show s.size + t.preorder.idxOf y < _
      have := hlt y hy; omega)
  have hrm : t.root ∈ t.preorder := by cases t; simp [Tree.preorder, Tree.root]
  have hx' : s'.alive (ρ t.root) = true := hal _ hrm
  have hr' : (t.map ρ).root = ρ t.root := Tree.root_map ρ t
  have hm' := h.grown.models
  have hdata : ∀ y ∈ t.preorder, g.getData (ρ y) = (fs.getData y).bind cl := by
    intro y hy
    have hi := hlt y hy
    have hi2 : t.preorder.idxOf y < t.preorder.length := by rw [Tree.length_preorder]; exact hi
    unfold Forest.getData
    rw [h.data]
    have e : ρ y = f.data.length + t.preorder.idxOf y := by rw [hm.dataLen]
    rw [e, List.getElem?_append_right (by omega), Nat.add_sub_cancel_left, copies, List.getElem?_map,
      List.getElem?_eq_getElem hi2, List.getElem_idxOf]
    rfl
  have hmem : ∀ z, Ev.opn z ∈ t.events → z ∈ t.preorder := fun z hz => (Tree.opn_mem_events t z).1 hz
  refine ⟨ρ, t.events, t.bfs, ?_⟩
  refine Alike.mk hroot (C19_depth_first hms hx ht rfl) ?_ (C22_breadth_first um hms hx ht rfl) ?_ ?_ ?_
    (fun z hz => hdata z (hmem z hz)) ?_
  · rw [← Tree.events_map]
    exact C19_depth_first hm' (by rw [← hroot]; exact hx') htr (hr'.trans hroot)
  · rw [← Tree.bfs_map]
    exact C22_breadth_first um hm' (by rw [← hroot]; exact hx') htr (hr'.trans hroot)
  · intro z hz
    have hge : s.size ≤ ρ z := Nat.le_add_right _ _
    refine ⟨by unfold Forest.issued; rw [hm.dataLen]; exact hge, ?_, by rw [hm'.isAlive]; exact hal z (hmem z hz)⟩
    rw [hm.isAlive]
    apply Bool.eq_false_iff.2
    intro e
    have := hm.valid.alive_lt _ e
    omega
  · intro z z' hz hz' he
    have he : s.size + t.preorder.idxOf z = s.size + t.preorder.idxOf z' := he
    have e : t.preorder.idxOf z = t.preorder.idxOf z' := by omega
    exact (List.idxOf_inj (hmem z hz)).1 e
  · intro S put disp hdisp
    rw [← hroot]
    refine (debugPrint_congr hms hm' ht htr hx hx' fun y hy => ?_).symm
    rw [hdata y hy]
    have hc := hcl y hy
    unfold clones at hc
    cases hd : fs.getData y with
    | none => rfl
    | some d =>
      rw [hd] at hc
      simp only [Option.bind_some, Option.isSome_iff_exists] at hc
      obtain ⟨d', hd'⟩ := hc
      simp only [Option.map_some, Option.bind_some, hd', hdisp d d' hd']

/-- **C56**.  Whenever `clone_local_tree` / `clone_foreign_tree` returns, the copy looks like the source (`Alike`). -/
theorem C56_copy_looks_alike (um : Nat) (hm : Models f s) {cap : Nat} (cl : T → Option T) :
    (∀ x id g, s.alive x = true → Forest.cloneLocalTree cap cl x f = .ok id g →
      ∃ ρ dfs bfs, Alike um cl f f g x id ρ dfs bfs) ∧
    (∀ fs ss x id g, Models fs ss → ss.alive x = true → Forest.cloneForeignTree cap cl fs x f = .ok id g →
      ∃ ρ dfs bfs, Alike um cl f fs g x id ρ dfs bfs) := by
  constructor
  · intro x id g hx h
    obtain ⟨t, ht, rfl⟩ := Tree.exists_tree hm.valid hx
    obtain ⟨rfl, _, hcl, s', h2⟩ := (noHook_outcome (cloneLocal_spec (cap := cap) (cl := cl) hm ht hx ())).2 _ _ h
    exact copied_alike um hm hm ht hx hcl h2
  · intro fs ss x id g hms hx h
    obtain ⟨t, ht, rfl⟩ := Tree.exists_tree hms.valid hx
    obtain ⟨rfl, _, hcl, s', h2⟩ := (noHook_outcome (cloneForeign_spec (cap := cap) (cl := cl) hm hms ht hx ())).2 _ _ h
    exact copied_alike um hm hms ht hx hcl h2

/-- **C56**: what `debug_print` writes, and whether it returns an error, depends only on the tree of displayed data:
not on the IDs, the rest of the forest, the history or the data type. -/
theorem C56_print_depends_on_tree {S U : Type} {put : S → Text → Except S S} {disp : T → Fmt}
    {disp' : U → Fmt} {g : Forest U} {s' : Shape} (hm : Models f s) (hm' : Models g s')
    {t : Tree Nat} {ρ : Nat → Nat} (ht : Tree.IsTree s.kids t) (ht' : Tree.IsTree s'.kids (t.map ρ))
    (hx : s.alive t.root = true) (hx' : s'.alive (ρ t.root) = true)
    (hd : ∀ y ∈ t.preorder, (f.getData y).map disp = (g.getData (ρ y)).map disp') (σ : S) :
    f.debugPrint put disp t.root σ = g.debugPrint put disp' (ρ t.root) σ := by
  rw [debugPrint_congr hm hm' ht ht' hx hx' hd]

/-- Copying the subtree of 2 of the sample. -/
example : ∃ g ρ dfs bfs, Forest.cloneLocalTree 100 some 2 Sample.built = .ok 8 g ∧
    Alike 1000 some Sample.built Sample.built g 2 8 ρ dfs bfs := by
  obtain ⟨g, s', h, _⟩ := C28_clone_local Sample.models (x := 2) rfl Sample.isTree2 rfl (cap := 100) (by decide) some
    (by decide)
  obtain ⟨ρ, dfs, bfs, h2⟩ := (C56_copy_looks_alike 1000 Sample.models (cap := 100) some).1 2 _ g rfl h
  exact ⟨g, ρ, dfs, bfs, h, h2⟩

/-! ### The hypotheses can be met

Each example applies the theorem named in its comment to a concrete forest. -/

section
/-- `C56_print_depends_on_tree`: the tree of node 2 and its clone at node 8. -/
example (put : Text → Text → Except Text Text) (disp : Nat → Fmt) (out : Text) : ∃ g, Forest.cloneLocalTree 100 some 2 Sample.built = .ok 8 g ∧
    Sample.built.debugPrint put disp 2 out = g.debugPrint put disp 8 out := by
  obtain ⟨g, s', h, hG, _, _, ht, _⟩ := C28_clone_local Sample.models (x := 2) rfl Sample.isTree2 rfl (cap := 100) (by decide) some (by decide)
  obtain rfl : (Forest.cloneLocalTree 100 some 2 Sample.built).state = g := by rw [h]; rfl
  refine ⟨_, h, ?_⟩
  have e : Tree.number 8 Sample.tree2 = Tree.map (fun y => if y = 2 then 8 else y + 5) Sample.tree2 := rfl
  exact C56_print_depends_on_tree (ρ := fun y => if y = 2 then 8 else y + 5) (t := Sample.tree2) Sample.models hG.models Sample.isTree2 (e ▸ ht) rfl
    ((hG.models.isAlive 8).symm.trans (by decide)) (fun y hy => by
      have : ∀ y ∈ Sample.tree2.preorder, Sample.built.getData y =
        (Forest.cloneLocalTree 100 some 2 Sample.built).state.getData (if y = 2 then 8 else y + 5) := by decide
      rw [this y hy]) out

end

end Treena
