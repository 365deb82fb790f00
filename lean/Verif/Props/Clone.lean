import Verif.Proof.Iso
import Verif.Proof.ForestOps
import Verif.Props.Sample
import Verif.Props.SampleRun
/-!
# Properties of cloning (C28–C30)

`cap` is the number of IDs there are, `cl` is `T::clone`.  `Tree.preorder.zip (range' b n)` numbers the nodes of
the source, in preorder, with the IDs `b, b+1, …` of the copies.
-/
set_option autoImplicit false

namespace Treena
open Shape
variable {T S : Type} {f : Forest T} {s : Shape}

/-- The callback that records the pairs it is given. -/
def recordPairs : Forest.MapHook (List (Nat × Nat)) := fun l a b => .ok (l ++ [(a, b)])

theorem feed_recordPairs (l : List (Nat × Nat)) : ∀ acc,
    feed (pairHook recordPairs) acc l = (acc ++ l, none) := by
  induction l with
  | nil => intro acc; simp [feed]
  | cons a l ih => intro acc; simp [feed, pairHook, recordPairs] at ih ⊢; rw [ih]; simp

theorem feed_unit (l : List (Nat × Nat)) :
    feed (pairHook (fun (u : Unit) _ _ => .ok u)) () l = ((), none) := by
  induction l with
  | nil => rfl
  | cons a l ih => simp [feed, pairHook] at ih ⊢; rw [ih]

theorem noHook_outcome {cap : Nat} {cl : T → Option T} {dat : Nat → Option T} {t : Tree Nat}
    {m : M (Forest T × Unit) Nat}
    (h : CloneOutcome f s cap cl (fun u _ _ => .ok u) dat t () (m (f, ()))) :
    ((∀ y ∈ t.preorder, clones cl dat y = true) →
      (s.size + t.count ≤ cap → ∃ g s', Forest.noHook m f = .ok s.size g ∧ Copied f s cl dat t g s') ∧
      (cap < s.size + t.count → ∃ g s', Forest.noHook m f = .fail overflow g ∧ Grown f s g s' ∧
        s'.size = max s.size cap ∧ ∀ t' ∈ t.trunc (cap - s.size), Copied f s cl dat t' g s')) ∧
    ∀ n g, Forest.noHook m f = .ok n g → n = s.size ∧ s.size + t.count ≤ cap ∧
      (∀ y ∈ t.preorder, clones cl dat y = true) ∧ ∃ s', Copied f s cl dat t g s' := by
  obtain ⟨g, σ', s', ⟨h1, h2, hfi, h3, h4⟩ | ⟨e, m', h1, h2, h3, h4, hpart, h5⟩⟩ := h
  · refine ⟨fun _ => ⟨fun _ => ⟨g, s', by simp [Forest.noHook, h4], h3⟩, fun hc => by omega⟩, fun n g' h => ?_⟩
    simp only [Forest.noHook, h4, Res.ok.injEq] at h
    obtain ⟨rfl, rfl⟩ := h
    exact ⟨rfl, h2, hfi, s', h3⟩
  · refine ⟨fun hcl => ?_, fun n g' h => by simp [Forest.noHook, h1] at h⟩
    cases h5 with
    | hook k hf _ _ _ => rw [feed_unit] at hf; simp at hf
    | clone _ _ _ _ hq =>
      obtain ⟨q, hq, hf⟩ := hq
      rw [hcl q.1 (List.of_mem_zip (List.mem_of_getElem? hq)).1] at hf
      cases hf
    | full hc hf _ =>
      have hl : (t.preorder.zip (List.range' s.size t.count)).length = t.count := by
        simp [Tree.length_preorder]
      rw [hl] at hc
      refine ⟨fun h => by omega, fun _ => ?_⟩
      exact ⟨g, s', by simp [Forest.noHook, h1], h2, by omega, hpart⟩

/-- **C28**.  `clone_local_tree(x)` with enough IDs left returns a fresh ID, the root of a copy of the tree of
`x`: shape and data correspond node for node, the copy consists of fresh IDs, and everything that was in the
forest (in particular the source tree) is unchanged. -/
theorem C28_clone_local (hm : Models f s) {x : Nat} (hx : s.alive x = true) {t : Tree Nat}
    (ht : Tree.IsTree s.kids t) (hr : t.root = x) {cap : Nat} (hcap : s.size + t.count ≤ cap) (cl : T → Option T)
    (hcl : ∀ y ∈ t.preorder, clones cl f.getData y = true) :
    ∃ g s', Forest.cloneLocalTree cap cl x f = .ok s.size g ∧ Grown f s g s' ∧ Describes g s' ∧
      s'.size = s.size + t.count ∧ Tree.IsTree s'.kids (t.number s.size) ∧ Tree.IsTree s'.kids t ∧
      g.data = f.data ++ t.preorder.map (fun y => (f.getData y).bind cl) ∧
      Corresponds s.parent s.kids f.getData cl x s.size s.size
        (t.preorder.zip (List.range' s.size t.count)) g s' := by
  subst hr
  obtain ⟨g, s', h1, h2⟩ := ((noHook_outcome (cloneLocal_spec (cap := cap) (cl := cl) hm ht hx ())).1 hcl).1 hcap
  refine ⟨g, s', h1, h2.grown, h2.grown.models.describes, h2.size, h2.tree, ?_, h2.data,
    copied_corresponds hm.valid ht hm.dataLen h2⟩
  refine Tree.isTree_congr t (fun y hy => (h2.grown.kids y ?_).symm) ht
  exact hm.valid.alive_lt y (Tree.mem_alive hm.valid ht hx hy)

/-- C28: without enough IDs it panics; what had been built by then is a separate partial tree, namely a copy of as
many nodes (in preorder) as there were IDs, the rest of the forest is unchanged and the forest is consistent. -/
theorem C28_clone_local_overflow (hm : Models f s) {x : Nat} (hx : s.alive x = true) {t : Tree Nat}
    (ht : Tree.IsTree s.kids t) (hr : t.root = x) {cap : Nat} (hcap : cap < s.size + t.count) (cl : T → Option T)
    (hcl : ∀ y ∈ t.preorder, clones cl f.getData y = true) :
    ∃ g s', Forest.cloneLocalTree cap cl x f = .fail overflow g ∧ Grown f s g s' ∧ s'.size = max s.size cap ∧
      ∀ t' ∈ t.trunc (cap - s.size), Copied f s cl f.getData t' g s' := by
  subst hr
  exact ((noHook_outcome (cloneLocal_spec (cap := cap) (cl := cl) hm ht hx ())).1 hcl).2 hcap

/-- **C29**.  The same for `clone_foreign_tree`, the source being the node `x` of another forest `fs`. -/
theorem C29_clone_foreign {fs : Forest T} {ss : Shape} (hm : Models f s) (hms : Models fs ss) {x : Nat}
    (hx : ss.alive x = true) {t : Tree Nat} (ht : Tree.IsTree ss.kids t) (hr : t.root = x) {cap : Nat}
    (hcap : s.size + t.count ≤ cap) (cl : T → Option T)
    (hcl : ∀ y ∈ t.preorder, clones cl fs.getData y = true) :
    ∃ g s', Forest.cloneForeignTree cap cl fs x f = .ok s.size g ∧ Grown f s g s' ∧ Describes g s' ∧
      s'.size = s.size + t.count ∧ Tree.IsTree s'.kids (t.number s.size) ∧
      g.data = f.data ++ t.preorder.map (fun y => (fs.getData y).bind cl) ∧
      Corresponds ss.parent ss.kids fs.getData cl x s.size s.size
        (t.preorder.zip (List.range' s.size t.count)) g s' := by
  subst hr
  obtain ⟨g, s', h1, h2⟩ := ((noHook_outcome (cloneForeign_spec (cap := cap) (cl := cl) hm hms ht hx ())).1 hcl).1 hcap
  exact ⟨g, s', h1, h2.grown, h2.grown.models.describes, h2.size, h2.tree, h2.data,
    copied_corresponds hms.valid ht hm.dataLen h2⟩

/-- C29: without enough IDs it panics, leaving the destination consistent and its old nodes unchanged. -/
theorem C29_clone_foreign_overflow {fs : Forest T} {ss : Shape} (hm : Models f s) (hms : Models fs ss) {x : Nat}
    (hx : ss.alive x = true) {t : Tree Nat} (ht : Tree.IsTree ss.kids t) (hr : t.root = x) {cap : Nat}
    (hcap : cap < s.size + t.count) (cl : T → Option T)
    (hcl : ∀ y ∈ t.preorder, clones cl fs.getData y = true) :
    ∃ g s', Forest.cloneForeignTree cap cl fs x f = .fail overflow g ∧ Grown f s g s' ∧
      s'.size = max s.size cap ∧ ∀ t' ∈ t.trunc (cap - s.size), Copied f s cl fs.getData t' g s' := by
  subst hr
  exact ((noHook_outcome (cloneForeign_spec (cap := cap) (cl := cl) hm hms ht hx ())).1 hcl).2 hcap

/-- The part of a run with a recording callback shared by the two functions. -/
theorem recorded_outcome {cap : Nat} {cl : T → Option T} {dat : Nat → Option T} {t : Tree Nat} {ss : Shape}
    {m : M (Forest T × List (Nat × Nat)) Nat} (hm : Models f s) (hs : ss.Valid) (ht : Tree.IsTree ss.kids t)
    (hcap : s.size + t.count ≤ cap) (hcl : ∀ y ∈ t.preorder, clones cl dat y = true)
    (h : CloneOutcome f s cap cl recordPairs dat t [] (m (f, []))) :
    ∃ g s' pairs, m (f, []) = .ok s.size (g, pairs) ∧ pairs.map (·.1) = t.preorder ∧ Grown f s g s' ∧
      Corresponds ss.parent ss.kids dat cl t.root s.size s.size pairs g s' := by
  obtain ⟨g, σ', s', ⟨h1, h2, _, h3, h4⟩ | ⟨e, m', h1, h2, h3, h4, hpart, h5⟩⟩ := h
  · rw [feed_recordPairs] at h1
    simp only [List.nil_append, Prod.mk.injEq, and_true] at h1
    subst h1
    exact ⟨g, s', _, h4, Tree.pairs_fst t s.size, h3.grown, copied_corresponds hs ht hm.dataLen h3⟩
  · cases h5 with
    | hook k hf _ _ _ => rw [feed_recordPairs] at hf; simp at hf
    | clone _ _ _ _ hq =>
      obtain ⟨q, hq, hf⟩ := hq
      rw [hcl q.1 (List.of_mem_zip (List.mem_of_getElem? hq)).1] at hf
      cases hf
    | full hc hf _ =>
      have hl : (t.preorder.zip (List.range' s.size t.count)).length = t.count := by
        simp [Tree.length_preorder]
      omega

/-- **C30**.  The callback of `clone_local_tree_with_id_mapping` is called once per node of the source tree, in
preorder, with the source ID and the ID of its copy; this is a one-to-one correspondence respecting roots,
parents, child lists and data, onto fresh IDs. -/
theorem C30_mapping_local (hm : Models f s) {x : Nat} (hx : s.alive x = true) {t : Tree Nat}
    (ht : Tree.IsTree s.kids t) (hr : t.root = x) {cap : Nat} (hcap : s.size + t.count ≤ cap) (cl : T → Option T)
    (hcl : ∀ y ∈ t.preorder, clones cl f.getData y = true) :
    ∃ g s' pairs, Forest.cloneLocalTreeWithIdMapping cap cl recordPairs x (f, []) = .ok s.size (g, pairs) ∧
      pairs.map (·.1) = t.preorder ∧ Grown f s g s' ∧
      Corresponds s.parent s.kids f.getData cl x s.size s.size pairs g s' := by
  subst hr
  exact recorded_outcome hm hm.valid ht hcap hcl (cloneLocal_spec hm ht hx [])

/-- **C30** for `clone_foreign_tree_with_id_mapping`. -/
theorem C30_mapping_foreign {fs : Forest T} {ss : Shape} (hm : Models f s) (hms : Models fs ss) {x : Nat}
    (hx : ss.alive x = true) {t : Tree Nat} (ht : Tree.IsTree ss.kids t) (hr : t.root = x) {cap : Nat}
    (hcap : s.size + t.count ≤ cap) (cl : T → Option T)
    (hcl : ∀ y ∈ t.preorder, clones cl fs.getData y = true) :
    ∃ g s' pairs, Forest.cloneForeignTreeWithIdMapping cap cl recordPairs fs x (f, []) = .ok s.size (g, pairs) ∧
      pairs.map (·.1) = t.preorder ∧ Grown f s g s' ∧
      Corresponds ss.parent ss.kids fs.getData cl x s.size s.size pairs g s' := by
  subst hr
  exact recorded_outcome hm hms.valid ht hcap hcl (cloneForeign_spec hm hms ht hx [])

/-- **C30**, any callback, panicking or not, any capacity: every outcome of the two functions
(see `CloneOutcome`); in particular a panic of the callback in its `k`-th call leaves a consistent forest with
exactly `k + 1` new nodes, and everything that was there before unchanged. -/
theorem C30_any_callback {fs : Forest T} {ss : Shape} (hm : Models f s) (hms : Models fs ss) {cap : Nat}
    (cl : T → Option T) (hook : Forest.MapHook S) (σ : S) :
    (∀ t : Tree Nat, Tree.IsTree s.kids t → s.alive t.root = true →
      CloneOutcome f s cap cl hook f.getData t σ
        (Forest.cloneLocalTreeWithIdMapping cap cl hook t.root (f, σ))) ∧
    (∀ t : Tree Nat, Tree.IsTree ss.kids t → ss.alive t.root = true →
      CloneOutcome f s cap cl hook fs.getData t σ
        (Forest.cloneForeignTreeWithIdMapping cap cl hook fs t.root (f, σ))) :=
  ⟨fun _ ht hx => cloneLocal_spec hm ht hx σ, fun _ ht hx => cloneForeign_spec hm hms ht hx σ⟩

theorem noHook_clone_panic {cap : Nat} {cl : T → Option T} {dat : Nat → Option T} {t : Tree Nat}
    {m : M (Forest T × Unit) Nat} (h : CloneOutcome f s cap cl (fun u _ _ => .ok u) dat t () (m (f, ())))
    {k y : Nat} (hcap : s.size + k ≤ cap) (hk : t.preorder[k]? = some y) (hbad : clones cl dat y = false)
    (hok : ∀ z ∈ t.preorder.take k, clones cl dat z = true) :
    ∃ g s', Forest.noHook m f = .fail clonePanic g ∧ Grown f s g s' ∧ s'.size = s.size + k ∧
      g.data = f.data ++ (t.preorder.take k).map (fun z => (dat z).bind cl) ∧
      ∀ t' ∈ t.trunc k, Copied f s cl dat t' g s' := by
  have hget : ∀ j : Nat, Option.map (fun q : Nat × Nat => q.1) (t.preorder.zip (List.range' s.size t.count))[j]? = t.preorder[j]? := by
    intro j
    rw [← List.getElem?_map]; exact congrArg (fun l : List Nat => l[j]?) (Tree.pairs_fst t s.size)
  have hkq : ∃ n, (t.preorder.zip (List.range' s.size t.count))[k]? = some (y, n) := by
    have := hget k
    rw [hk] at this
    obtain ⟨q, hq, rfl⟩ := Option.map_eq_some_iff.1 this
    exact ⟨q.2, hq⟩
  obtain ⟨n, hkq⟩ := hkq
  -- `y` is not among the first `j` pairs being fine, unless `j ≤ k`
  have hno : ∀ j, (∀ q ∈ (t.preorder.zip (List.range' s.size t.count)).take j, clones cl dat q.1 = true) → j ≤ k := by
    intro j hj
    rcases Nat.lt_or_ge k j with hlt | hge
    · have := hj (y, n) (List.mem_of_getElem? (i := k) (by rw [List.getElem?_take, if_pos hlt]; exact hkq))
      rw [hbad] at this; cases this
    · exact hge
  obtain ⟨g, σ', s', ⟨_, _, hfi, _, _⟩ | ⟨e, m', h1, h2, h3, h4, hpart, h5⟩⟩ := h
  · rw [hfi y (List.mem_of_getElem? hk)] at hbad; cases hbad
  · cases h5 with
    | hook j hf _ _ _ => rw [feed_unit] at hf; simp at hf
    | full hc hf hfi => have := hno _ hfi; omega
    | clone _ hf hc hfi hq =>
      obtain ⟨q, hq, hqf⟩ := hq
      have h6 := hno _ hfi
      have h7 : ¬ m' < k := by
        intro hlt
        have h8 : t.preorder[m']? = some q.1 := by rw [← hget, hq]; rfl
        have := hok q.1 (List.mem_of_getElem? (i := m') (by rw [List.getElem?_take, if_pos hlt]; exact h8))
        rw [hqf] at this; cases this
      obtain rfl : m' = k := by omega
      exact ⟨g, s', by simp [Forest.noHook, h1], h2, h3, h4, hpart⟩

/-- **C30**, a panic of `T::clone` for node number `k` (from 0, in preorder) of the tree being copied: the call panics,
copies of the nodes before it exist (a separate partial tree of `k` nodes), the rest of the forest is unchanged and
the forest is consistent. -/
theorem C30_clone_panics {fs : Forest T} {ss : Shape} (hm : Models f s) (hms : Models fs ss) {cap k y : Nat}
    (cl : T → Option T) (hcap : s.size + k ≤ cap) :
    (∀ t : Tree Nat, Tree.IsTree s.kids t → s.alive t.root = true → t.preorder[k]? = some y →
      clones cl f.getData y = false → (∀ z ∈ t.preorder.take k, clones cl f.getData z = true) →
      ∃ g s', Forest.cloneLocalTree cap cl t.root f = .fail clonePanic g ∧ Grown f s g s' ∧ s'.size = s.size + k ∧
        g.data = f.data ++ (t.preorder.take k).map (fun z => (f.getData z).bind cl) ∧
        ∀ t' ∈ t.trunc k, Copied f s cl f.getData t' g s') ∧
    (∀ t : Tree Nat, Tree.IsTree ss.kids t → ss.alive t.root = true → t.preorder[k]? = some y →
      clones cl fs.getData y = false → (∀ z ∈ t.preorder.take k, clones cl fs.getData z = true) →
      ∃ g s', Forest.cloneForeignTree cap cl fs t.root f = .fail clonePanic g ∧ Grown f s g s' ∧
        s'.size = s.size + k ∧ g.data = f.data ++ (t.preorder.take k).map (fun z => (fs.getData z).bind cl) ∧
        ∀ t' ∈ t.trunc k, Copied f s cl fs.getData t' g s') :=
  ⟨fun _ ht hx hk hb ho => noHook_clone_panic (cloneLocal_spec hm ht hx ()) hcap hk hb ho,
   fun _ ht hx hk hb ho => noHook_clone_panic (cloneForeign_spec hm hms ht hx ()) hcap hk hb ho⟩

/-- The sample: cloning the tree of node 2 inside the forest, and the tree of node 0 into an empty forest. -/
example : (∃ g s', Forest.cloneLocalTree 100 (fun d => some (d + 1)) 2 Sample.built = .ok 8 g ∧ Describes g s' ∧
      s'.kids 8 = [9, 10] ∧ g.getData 9 = some 15) ∧
    (∃ g pairs, Forest.cloneForeignTreeWithIdMapping 100 (fun d => some (d + 1)) recordPairs Sample.built 0 (Forest.new, []) =
      .ok 0 (g, pairs) ∧ pairs.map (·.1) = [0, 1, 2, 4, 5, 3]) := by
  constructor
  · obtain ⟨g, s', h1, _, h2, _, h3, _, h4, _⟩ :=
      C28_clone_local Sample.models (x := 2) rfl Sample.isTree2 rfl (cap := 100) (by decide) (fun d => some (d + 1))
        (by decide)
    refine ⟨g, s', h1, h2, h3.1, ?_⟩
    simp only [Forest.getData, h4]
    decide
  · obtain ⟨g, s', pairs, h1, h2, _⟩ :=
      C30_mapping_foreign Sample.new_models Sample.models (x := 0) rfl Sample.isTree rfl (cap := 100) (by decide)
        (fun d => some (d + 1)) (by decide)
    exact ⟨g, pairs, h1, h2⟩

/-- With room for two nodes only, it panics; the two nodes are the copies of the nodes 2 and 4. -/
example : ∃ g s', Forest.cloneLocalTree 10 (fun d => some (d + 1)) 2 Sample.built = .fail overflow g ∧
    Describes g s' ∧ s'.kids 8 = [9] ∧ s'.kids 9 = [] ∧ s'.size = 10 := by
  obtain ⟨g, s', h, h1, h2, h3⟩ :=
    C28_clone_local_overflow Sample.models (x := 2) rfl Sample.isTree2 rfl (cap := 10) (by decide) (fun d => some (d + 1))
      (by decide)
  have h3 := h3 (.node 2 [.node 4 []]) (by simp [Tree.trunc, Tree.truncL, Tree.count, Sample.shape, Sample.tree2])
  exact ⟨g, s', h, h1.models.describes, h3.tree.1, h3.tree.2.1.1, h2⟩

/-- `T::clone` panics for the datum 14 of node 4, the second node of the tree of 2: one node has been copied. -/
example : ∃ g s', Forest.cloneLocalTree 100 (fun d => if d = 14 then none else some d) 2 Sample.built =
    .fail clonePanic g ∧ Describes g s' ∧ s'.size = 9 := by
  obtain ⟨g, s', h1, h2, h3, _⟩ :=
    (C30_clone_panics Sample.models Sample.models (cap := 100) (k := 1) (y := 4)
      (fun d => if d = 14 then none else some d) (by decide)).1 _ Sample.isTree2 rfl (by decide) (by decide) (by decide)
  exact ⟨g, s', h1, h2.models.describes, h3⟩

/-! ### The hypotheses can be met

Each example applies the theorem named in its comment to a concrete forest. -/

section
/-- `C29_clone_foreign`: the tree of node 0, cloned into the sample forest itself taken as another one, and into an empty forest. -/
example := C29_clone_foreign Sample.models Sample.models (x := 0) rfl Sample.isTree rfl (cap := 100) (by decide) some (by decide)

/-- `C29_clone_foreign`: the tree of node 0, cloned into the sample forest itself taken as another one, and into an empty forest (continued). -/
example := C29_clone_foreign (T := Nat) Sample.new_models Sample.models (x := 2) rfl Sample.isTree2 rfl (cap := 3) (by decide) some (by decide)

/-- `C29_clone_foreign_overflow`: only two of the three IDs are available. -/
example := C29_clone_foreign_overflow (T := Nat) Sample.new_models Sample.models (x := 2) rfl Sample.isTree2 rfl (cap := 2) (by decide) some (by decide)

/-- `C30_any_callback`: a callback that panics. -/
example := C30_any_callback (cap := 100) Sample.models Sample.models some (fun (k : Nat) _ _ => if k = 1 then .error k else .ok (k + 1)) 0

/-- `C30_mapping_local`: the tree of node 0. -/
example := C30_mapping_local Sample.models (x := 0) rfl Sample.isTree rfl (cap := 100) (by decide) some (by decide)

end

end Treena
