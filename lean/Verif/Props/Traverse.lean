import Verif.Proof.IterRaw
import Verif.Proof.Order
import Verif.Props.Sample
import Verif.Props.SampleRun
/-!
# Properties of the iterators (C19–C27, C37)

`t` is the tree seen from the start node by following the child lists (`Tree.IsTree`); it exists and is
unique, see `subtree_exists_unique`.
-/
set_option autoImplicit false

namespace Treena
open Shape
variable {T : Type} {f : Forest T} {s : Shape}

/-- Every live node has exactly one subtree. -/
theorem subtree_exists_unique (hm : Models f s) {x : Nat} (hx : s.alive x = true) :
    ∃ t, (Tree.IsTree s.kids t ∧ t.root = x) ∧ ∀ t', Tree.IsTree s.kids t' ∧ t'.root = x → t' = t := by
  obtain ⟨t, ht, hr⟩ := Tree.exists_tree hm.valid hx
  exact ⟨t, ⟨ht, hr⟩, fun t' h => Tree.isTree_unique _ _ h.1 ht (h.2.trans hr.symm)⟩

/-! ### C19, C20: depth-first -/

/-- **C19**.  Repeated `next` on `depth_first_traverse(x)` gives the bracketed events of the subtree of `x`
(`Open(x)`, the events of the children in order, `Close(x)`), then `None` forever; no panic. -/
theorem C19_depth_first (hm : Models f s) {x : Nat} (hx : s.alive x = true) {t : Tree Nat}
    (ht : Tree.IsTree s.kids t) (hr : t.root = x) :
    ∃ st, f.depthFirstTraverse x = .ok st ∧ ∀ n, pull f.dftNext n st = .ok (pulls t.events n) := by
  subst hr
  exact ⟨_, dft_start hm hx, fun n => pull_list (st := ends) (fun _ w => Walk.tail w)
    (fun _ w => dftNext_walk w) n _ (dft_walk hm ht hx)⟩

/-- C19: on a dead node the constructor panics (documented). -/
theorem C19_dead (hm : Models f s) {x : Nat} (hx : s.alive x = false) :
    ∃ msg, f.depthFirstTraverse x = .error (.panic msg) := by
  have : f.node x = none := by rw [hm.describes.node]; simp [hx]
  exact ⟨_, by simp [Forest.depthFirstTraverse, Forest.iterNew, Forest.nodeOrPanic, this]; rfl⟩

/-- **C20**, depth-first: any interleaving of `next` and `next_back` acts as on a deque of the events. -/
theorem C20_dft_deque (hm : Models f s) {x : Nat} (hx : s.alive x = true) {t : Tree Nat}
    (ht : Tree.IsTree s.kids t) (hr : t.root = x) :
    ∃ st, f.depthFirstTraverse x = .ok st ∧
      ∀ ds, drive f.dftNext f.dftNextBack st ds = .ok (dequeRun t.events ds) := by
  subst hr
  exact ⟨_, dft_start hm hx, dft_drive hm ht hx⟩

theorem siblings_iterates {L : List Nat} {start : R Siblings.St} (w : SibWalk f L) (h : start = .ok (ends L)) :
    IteratesOver f.siblingsNext f.siblingsNextBack start L :=
  ⟨_, h, fun n => pull_list (st := ends) (fun _ w => Walk.tail w) (fun _ w => siblingsNext_walk w) n _ w,
    siblings_drive w⟩

/-- **C25** (and C20 for sibling iterators).  `children` iterates over the child list, `following_siblings`
(`_or_self`) over the part of the sibling list after (from) the node, `preceding_siblings` (`_or_self`) over the
part before (through) it, first to last.  `A ++ x :: B` is the parent's child list, or `[x]` for a root. -/
theorem C25_siblings (hm : Models f s) {x : Nat} (hx : s.alive x = true) :
    IteratesOver f.siblingsNext f.siblingsNextBack (f.children x) (s.kids x) ∧
    ∃ A B, (∀ p, s.parent x = some p → s.kids p = A ++ x :: B) ∧ (s.parent x = none → A = [] ∧ B = []) ∧
      IteratesOver f.siblingsNext f.siblingsNextBack (f.followingSiblings x) B ∧
      IteratesOver f.siblingsNext f.siblingsNextBack (f.followingSiblingsOrSelf x) (x :: B) ∧
      IteratesOver f.siblingsNext f.siblingsNextBack (f.precedingSiblings x) A ∧
      IteratesOver f.siblingsNext f.siblingsNextBack (f.precedingSiblingsOrSelf x) (A ++ [x]) := by
  have hs := sibs_split hm.valid x
  have hw := sibs_walk hm hx
  rw [← hs] at hw
  refine ⟨siblings_iterates (kids_walk hm x) (children_start hm hx), before (s.sibs x) x, after (s.sibs x) x,
    fun p hp => ?_, fun hp => ?_, ?_, ?_, ?_, ?_⟩
  · rw [hs]; simp [Shape.sibs, hp]
  · have : s.sibs x = [x] := by simp [Shape.sibs, hp]
    simp [this, before, after]
  · exact siblings_iterates (Walk.tail (L := x :: _) (following_walk hm hx)) (following_excl_start hm hx)
  · exact siblings_iterates (following_walk hm hx) (following_start hm hx)
  · exact siblings_iterates (Walk.left hw) (preceding_excl_start hm hx)
  · exact siblings_iterates (preceding_walk hm hx) (preceding_start hm hx)

/-! ### C21: shallow depth-first -/

/-- **C21**.  With a limit `m` below `usize::MAX` (`um`): the depth-annotated events at relative depth at most
`m`, in order.  With no limit, or `usize::MAX`: all of them, whose event part is the depth-first traversal.
`max_depth()` reports the limit in force. -/
theorem C21_shallow (um : Nat) (hm : Models f s) {x : Nat} (hx : s.alive x = true) {t : Tree Nat}
    (ht : Tree.IsTree s.kids t) (hr : t.root = x) :
    (∀ m, m < um →
      IteratesOver f.shallowNext f.shallowNextBack (Forest.shallowDepthFirstTraverse um f x (some m))
        ((t.devents 0).filter fun e => decide (e.2 ≤ m)) ∧
      (Forest.shallowDepthFirstTraverse um f x (some m)).map Forest.shallowMaxDepth = .ok (some m)) ∧
    (∀ md, md = none ∨ md = some um →
      IteratesOver f.shallowNext f.shallowNextBack (Forest.shallowDepthFirstTraverse um f x md) (t.devents 0) ∧
      (Forest.shallowDepthFirstTraverse um f x md).map Forest.shallowMaxDepth = .ok none) ∧
    (t.devents 0).map (·.1) = t.events ∧ ∀ e ∈ t.devents 0, e.2 < t.count := by
  subst hr
  have key : ∀ md, IteratesOver f.shallowNext f.shallowNextBack
      (Forest.shallowDepthFirstTraverse um f t.root md) (t.shallow (Shallow.collapseMax um md)) :=
    fun md => ⟨_, shallow_start um hm hx md, fun n => pull_list (st := shallowSt _) (fun _ w => Walk.tail w)
      (fun _ w => shallowNext_walk w) n _ (shallow_walk hm ht hx _), shallow_drive hm ht hx _⟩
  refine ⟨fun m hmu => ?_, fun md h => ?_, Tree.map_fst_devents t 0, fun e he => ?_⟩
  · have hc : Shallow.collapseMax um (some m) = some m := by simp [Shallow.collapseMax, hmu]
    have := key (some m)
    rw [hc] at this
    refine ⟨this, ?_⟩
    rw [shallow_start um hm hx, hc]; rfl
  · have hc : Shallow.collapseMax um md = none := by
      rcases h with rfl | rfl <;> simp [Shallow.collapseMax]
    have := key md
    rw [hc] at this
    refine ⟨this, ?_⟩
    rw [shallow_start um hm hx, hc]; rfl
  · simpa using Tree.devents_lt t 0 e he

/-! ### C22, C23: breadth-first -/

/-- **C22**.  Repeated `next` on `breadth_first_traverse(x)` gives the nodes of the subtree with their depth,
level by level, each level in document order, then `None` forever. -/
theorem C22_breadth_first (um : Nat) (hm : Models f s) {x : Nat} (hx : s.alive x = true) {t : Tree Nat}
    (ht : Tree.IsTree s.kids t) (hr : t.root = x) :
    ∃ st, Forest.breadthFirstTraverse um f x = .ok st ∧
      ∀ n, pull (Forest.bftNext um f) n st = .ok (pulls t.bfs n) := by
  subst hr
  obtain ⟨st, h1, h2⟩ := bft_start um hm ht hx
  exact ⟨st, h1, fun n => pull_inv (bftNext_inv um hm ht hx) n _ _ h2⟩

theorem advance_inv {ι σ : Type} {next : σ → R (Option ι × σ)} {Inv : σ → List ι → Prop}
    (h1 : ∀ st L, Inv st L → ∃ st', next st = .ok (L.head?, st') ∧ Inv st' L.tail) (n : Nat) :
    ∀ st L, Inv st L → ∃ st', advance next n st = .ok st' ∧ Inv st' (L.drop n) := by
  induction n with
  | zero => intro st L h; exact ⟨st, rfl, h⟩
  | succ n ih =>
    intro st L h
    obtain ⟨st', h2, h3⟩ := h1 st L h
    obtain ⟨st'', h4, h5⟩ := ih _ _ h3
    refine ⟨st'', by simp only [advance, h2]; exact h4, ?_⟩
    rw [List.drop_tail] at h5; exact h5

/-- **C23**.  `allocating_breadth_first_traverse` gives the same sequence; after any number `n` of calls,
`size_hint` brackets the number of items still to come, and `peek` is the next item. -/
theorem C23_allocating (hm : Models f s) {x : Nat} (hx : s.alive x = true) {t : Tree Nat}
    (ht : Tree.IsTree s.kids t) (hr : t.root = x) :
    ∃ st, f.allocatingBreadthFirstTraverse x = .ok st ∧
      (∀ n, pull f.abftNext n st = .ok (pulls t.bfs n)) ∧
      ∀ n, ∃ st', advance f.abftNext n st = .ok st' ∧
        (Forest.abftSizeHint st').1 ≤ (t.bfs.drop n).length ∧
        (∀ u, (Forest.abftSizeHint st').2 = some u → (t.bfs.drop n).length ≤ u) ∧
        f.abftPeek st' = .ok (t.bfs.drop n).head? := by
  subst hr
  obtain ⟨st, h1, h2⟩ := abft_start hm ht hx
  refine ⟨st, h1, fun n => pull_inv (abftNext_inv hm) n _ _ h2, fun n => ?_⟩
  obtain ⟨st', h3, h4⟩ := advance_inv (abftNext_inv hm) n _ _ h2
  exact ⟨st', h3, (abft_sizeHint h4).1, (abft_sizeHint h4).2, abft_peek hm h4⟩

/-- **C23**: `size_hint` tells exactly whether the iteration is over: after `n` calls it is `(0, Some(0))` if no item is left; otherwise
it promises at least one more item and no upper bound. -/
theorem C23_size_hint_ends (hm : Models f s) {x : Nat} (hx : s.alive x = true) {t : Tree Nat}
    (ht : Tree.IsTree s.kids t) (hr : t.root = x) :
    ∃ st, f.allocatingBreadthFirstTraverse x = .ok st ∧
      ∀ n, ∃ st', advance f.abftNext n st = .ok st' ∧
        (t.bfs.drop n = [] → Forest.abftSizeHint st' = (0, some 0)) ∧
        (t.bfs.drop n ≠ [] → 1 ≤ (Forest.abftSizeHint st').1 ∧ (Forest.abftSizeHint st').2 = none) := by
  subst hr
  obtain ⟨st, h1, h2⟩ := abft_start hm ht hx
  refine ⟨st, h1, fun n => ?_⟩
  obtain ⟨st', h3, h4⟩ := advance_inv (abftNext_inv hm) n _ _ h2
  exact ⟨st', h3, abft_sizeHint_end h4⟩

/-- C23: the two breadth-first iterators give the same items. -/
theorem C23_agree (um : Nat) (hm : Models f s) {x : Nat} (hx : s.alive x = true) :
    ∃ st st', Forest.breadthFirstTraverse um f x = .ok st ∧ f.allocatingBreadthFirstTraverse x = .ok st' ∧
      ∀ n, pull (Forest.bftNext um f) n st = pull f.abftNext n st' := by
  obtain ⟨t, ht, hr⟩ := Tree.exists_tree hm.valid hx
  obtain ⟨st, h1, h2⟩ := C22_breadth_first um hm hx ht hr
  obtain ⟨st', h3, h4, _⟩ := C23_allocating hm hx ht hr
  exact ⟨st, st', h1, h3, fun n => by rw [h2, h4]⟩

/-! ### C24: ancestors -/

/-- **C24**.  `L` is the path from `x` to its root: `ancestors_or_self` yields it, `ancestors` all but `x`. -/
theorem C24_ancestors (hm : Models f s) {x : Nat} (hx : s.alive x = true) :
    ∃ L, UpPath s.parent x L ∧
      (∃ st, f.ancestorsOrSelf x = .ok st ∧ ∀ n, pull f.ancestorsNext n st = .ok (pulls L n)) ∧
      (∃ st, f.ancestors x = .ok st ∧ ∀ n, pull f.ancestorsNext n st = .ok (pulls L.tail n)) := by
  obtain ⟨L, hL⟩ := UpPath.exists_of_rooted (hm.valid.rooted x)
  have hu : UpTo s L := .inr ⟨x, hx, hL⟩
  exact ⟨L, hL, ⟨_, ancestors_start hm hx hL, fun n => ancestors_pull hm n L hu⟩,
    ⟨_, ancestors_excl_start hm hx hL, fun n => ancestors_pull hm n _ (hu.next hm).2⟩⟩

/-- C24: `a` is met by `ancestors_or_self(y)` exactly if `y` is met by `depth_first_traverse(a)`. -/
theorem C24_duality (hm : Models f s) {a y : Nat} (ha : s.alive a = true) (hy : s.alive y = true) :
    ∃ st st', f.ancestorsOrSelf y = .ok st ∧ f.depthFirstTraverse a = .ok st' ∧
      ((∃ n items, pull f.ancestorsNext n st = .ok items ∧ some a ∈ items) ↔
       (∃ n items, pull f.dftNext n st' = .ok items ∧ some (Ev.opn y) ∈ items)) := by
  obtain ⟨L, hL, ⟨st, h1, h2⟩, _⟩ := C24_ancestors hm hy
  obtain ⟨t, ht, rfl⟩ := Tree.exists_tree hm.valid ha
  obtain ⟨st', h3, h4⟩ := C19_depth_first hm ha ht rfl
  have key : ∀ {ι : Type} (L : List ι) (a : ι), (∃ n, some a ∈ pulls L n) ↔ a ∈ L := by
    intro ι L a
    constructor
    · rintro ⟨n, h⟩
      simp only [pulls, List.mem_map, List.mem_range] at h
      obtain ⟨i, _, hi⟩ := h
      exact List.mem_of_getElem? hi
    · intro h
      obtain ⟨i, hi, he⟩ := List.getElem_of_mem h
      exact ⟨i + 1, by simp only [pulls, List.mem_map, List.mem_range]; exact ⟨i, by omega, by simp [hi, he]⟩⟩
  refine ⟨st, st', h1, h3, ?_⟩
  have e1 : (∃ n items, pull f.ancestorsNext n st = .ok items ∧ some t.root ∈ items) ↔ t.root ∈ L := by
    rw [← key]
    exact exists_congr fun n => by rw [h2]; simp
  have e2 : (∃ n items, pull f.dftNext n st' = .ok items ∧ some (Ev.opn y) ∈ items) ↔ Ev.opn y ∈ t.events := by
    rw [← key]
    exact exists_congr fun n => by rw [h4]; simp
  rw [e1, e2, mem_upPath_iff hL, (Tree.mem_events_iff t y).1, Tree.mem_preorder_iff hm.valid ht]

/-! ### C37: exactly once -/

/-- **C37**.  The nodes opened, the nodes closed by `depth_first_traverse(x)` and the nodes given by
`breadth_first_traverse(x)` each enumerate the nodes having `x` as ancestor-or-self, without duplicates.
The iterators give exactly the lists `dfs`, `bfs`, then `None`. -/
theorem C37_each_node_once (um : Nat) (hm : Models f s) {x : Nat} (hx : s.alive x = true) :
    ∃ (dfs : List (Ev Nat)) (bfs : List (Nat × Nat)),
      (∃ st, f.depthFirstTraverse x = .ok st ∧ ∀ n, pull f.dftNext n st = .ok (pulls dfs n)) ∧
      (∃ st, Forest.breadthFirstTraverse um f x = .ok st ∧
        ∀ n, pull (Forest.bftNext um f) n st = .ok (pulls bfs n)) ∧
      ∀ L, (L = Tree.opens dfs ∨ L = Tree.closes dfs ∨ L = bfs.map (·.1)) →
        L.Nodup ∧ ∀ y, y ∈ L ↔ s.alive y = true ∧ AncOrSelf s.parent x y := by
  obtain ⟨t, ht, hr⟩ := Tree.exists_tree hm.valid hx
  refine ⟨_, _, C19_depth_first hm hx ht hr, C22_breadth_first um hm hx ht hr, ?_⟩
  have hnd := Tree.preorder_nodup hm.valid t ht
  have hmem : ∀ y, y ∈ t.preorder ↔ s.alive y = true ∧ AncOrSelf s.parent x y := fun y => by
    rw [Tree.mem_preorder_iff hm.valid ht, hr]
    exact ⟨fun h => ⟨h.alive_down hm.valid hx, h⟩, fun h => h.2⟩
  have fin : ∀ L : List Nat, L.Perm t.preorder →
      L.Nodup ∧ ∀ y, y ∈ L ↔ s.alive y = true ∧ AncOrSelf s.parent x y :=
    fun L hp => ⟨hp.nodup_iff.2 hnd, fun y => by rw [hp.mem_iff, hmem]⟩
  rintro L (rfl | rfl | rfl)
  · rw [Tree.opens_events]; exact fin _ (.refl _)
  · rw [Tree.closes_events]; exact fin _ (Tree.postorder_perm t)
  · exact fin _ (Tree.bfs_perm t)

/-! ### C26: fused -/

/-- **C26**.  All iterators are fused, over every forest value (consistent or not) and from every state. -/
theorem C26_fused (um : Nat) (f : Forest T) :
    Fused f.dftNext f.dftNextBack ∧ Fused f.shallowNext f.shallowNextBack ∧
    Fused f.siblingsNext f.siblingsNextBack ∧ Fused1 (Forest.bftNext um f) ∧ Fused1 f.abftNext ∧
    Fused1 f.ancestorsNext := by
  refine ⟨fun st st' h => ?_, fun st st' h => ?_, fun st st' h => ?_, fun st st' h => ?_, fun st st' h => ?_,
    fun st st' h => ?_⟩
  · have : st' = none := by
      rcases h with h | h
      · exact (deNext_none (emit_inv h).1).2
      · exact (deNextBack_none (emit_inv h).1).2
    subst this
    exact drive_exhausted rfl rfl
  · have : st'.next = none := by
      rcases h with h | h
      · have := (emit_inv h).1
        unfold Shallow.next at this
        split at this
        · cases this
        · rename_i o n he
          simp only [Except.ok.injEq, Prod.mk.injEq] at this
          obtain ⟨rfl, rfl⟩ := this
          exact (deNext_none he).2
      · have := (emit_inv h).1
        unfold Shallow.nextBack at this
        split at this
        · cases this
        · rename_i o n he
          simp only [Except.ok.injEq, Prod.mk.injEq] at this
          obtain ⟨rfl, rfl⟩ := this
          exact (deNextBack_none he).2
    obtain ⟨nx, md⟩ := st'
    simp only at this
    subst this
    exact drive_exhausted rfl rfl
  · have : st' = none := by
      rcases h with h | h
      · exact (deNext_none (emit_inv h).1).2
      · exact (deNextBack_none (emit_inv h).1).2
    subst this
    exact drive_exhausted rfl rfl
  · refine pull_exhausted ?_
    have := bft_next_none (emit_inv h).1
    unfold Forest.bftNext
    rw [this]; rfl
  · refine pull_exhausted ?_
    have := abft_next_nil (h := f.hier) (abft_nextLoop_none _ _ _ (emit_inv h).1)
    unfold Forest.abftNext
    rw [this]; rfl
  · have : st' = none := by
      have := (emit_inv h).1
      unfold Ancestors.next at this
      cases st with
      | none => simp at this; exact this.symm
      | some a =>
        simp only at this
        split at this
        · cases this
        · split at this <;> simp at this
    subst this
    exact pull_exhausted rfl

/-! ### C27: peek -/

/-- **C27**.  In every state over every forest value, if `next` (`next_back`) returns, then `peek`
(`peek_back`) had returned the same item. -/
theorem C27_peek (f : Forest T) :
    Predicts f.dftPeek f.dftNext ∧ Predicts f.dftPeekBack f.dftNextBack ∧
    Predicts f.shallowPeek f.shallowNext ∧ Predicts f.shallowPeekBack f.shallowNextBack ∧
    Predicts f.siblingsPeek f.siblingsNext ∧ Predicts f.siblingsPeekBack f.siblingsNextBack ∧
    Predicts f.ancestorsPeek f.ancestorsNext := by
  refine ⟨fun st o st' h => ?_, fun st o st' h => ?_, fun st o st' h => ?_, fun st o st' h => ?_,
    fun st o st' h => ?_, fun st o st' h => ?_, fun st o st' h => ?_⟩
  all_goals
    obtain ⟨h1, h2⟩ := emit_inv h
    refine emitPeek_of ?_ h2
  · rw [deNext_head h1]; rfl
  · rw [deNextBack_last h1]; rfl
  · unfold Shallow.next at h1
    split at h1
    · cases h1
    · rename_i o n he
      simp only [Except.ok.injEq, Prod.mk.injEq] at h1
      rw [← h1.1, deNext_head he]; rfl
  · unfold Shallow.nextBack at h1
    split at h1
    · cases h1
    · rename_i o n he
      simp only [Except.ok.injEq, Prod.mk.injEq] at h1
      rw [← h1.1, deNextBack_last he]; rfl
  · rw [deNext_head h1]; rfl
  · rw [deNextBack_last h1]; rfl
  · unfold Ancestors.next at h1
    cases st with
    | none => simp at h1; rw [← h1.1]; rfl
    | some a =>
      simp only at h1
      split at h1
      · cases h1
      · split at h1
        · cases h1
        · simp at h1; rw [← h1.1]; rfl

/-- **C27** for `AllocatingBreadthFirstTraverse`: over every forest value, in every state it can reach. -/
theorem C27_peek_allocating (f : Forest T) {x n : Nat} {st st' st'' : ABft.St} {o : Option (Nat × Nat)}
    (h0 : f.allocatingBreadthFirstTraverse x = .ok st) (h1 : advance f.abftNext n st = .ok st')
    (h2 : f.abftNext st' = .ok (o, st'')) : f.abftPeek st' = .ok o := by
  have key : ∀ n (st st' : ABft.St), ABftRaw st → advance f.abftNext n st = .ok st' → ABftRaw st' := by
    intro n
    induction n with
    | zero => intro st st' hi h; cases h; exact hi
    | succ n ih =>
      intro st st' hi h
      simp only [advance] at h
      split at h
      · cases h
      · rename_i he
        exact ih _ _ (abft_raw_next hi (emit_inv he).1).2 h
  obtain ⟨h3, h4⟩ := emit_inv h2
  exact emitPeek_of (abft_raw_next (key _ _ _ (abft_raw_start h0) h1) h3).1 h4

/-- **C27**, consistent forests: in every state of the iteration `peek` and `peek_back` do return, and show the
two ends of what is left. -/
theorem C27_peek_consistent (um : Nat) (hm : Models f s) {x : Nat} (hx : s.alive x = true) {t : Tree Nat}
    (ht : Tree.IsTree s.kids t) (hr : t.root = x) :
    (∃ st, f.depthFirstTraverse x = .ok st ∧ ∀ ds, ∃ st', driveState f.dftNext f.dftNextBack st ds = .ok st' ∧
      f.dftPeek st' = .ok (dequeRest t.events ds).head? ∧
      f.dftPeekBack st' = .ok (dequeRest t.events ds).getLast?) ∧
    (∃ st, f.children x = .ok st ∧ ∀ ds, ∃ st', driveState f.siblingsNext f.siblingsNextBack st ds = .ok st' ∧
      f.siblingsPeek st' = .ok (dequeRest (s.kids x) ds).head? ∧
      f.siblingsPeekBack st' = .ok (dequeRest (s.kids x) ds).getLast?) ∧
    (∀ m, m < um → ∃ st, Forest.shallowDepthFirstTraverse um f x (some m) = .ok st ∧
      ∀ ds, ∃ st', driveState f.shallowNext f.shallowNextBack st ds = .ok st' ∧
      f.shallowPeek st' = .ok (dequeRest ((t.devents 0).filter fun e => decide (e.2 ≤ m)) ds).head? ∧
      f.shallowPeekBack st' = .ok (dequeRest ((t.devents 0).filter fun e => decide (e.2 ≤ m)) ds).getLast?) := by
  subst hr
  refine ⟨⟨_, dft_start hm hx, fun ds => ?_⟩, ⟨_, children_start hm hx, fun ds => ?_⟩, fun m hmu => ?_⟩
  · obtain ⟨h1, h2⟩ := driveState_deque (st := ends) (fun _ w => Walk.tail w) (fun _ w => Walk.dropLast w)
      (fun _ w => dftNext_walk w) (fun _ w => dftNextBack_walk w) ds _ (dft_walk hm ht hx)
    exact ⟨_, h1, (C27_peek f).1 _ _ _ (dftNext_walk h2), (C27_peek f).2.1 _ _ _ (dftNextBack_walk h2)⟩
  · obtain ⟨h1, h2⟩ := driveState_deque (st := ends) (fun _ w => Walk.tail w) (fun _ w => Walk.dropLast w)
      (fun _ w => siblingsNext_walk w) (fun _ w => siblingsNextBack_walk w) ds _ (kids_walk hm t.root)
    exact ⟨_, h1, (C27_peek f).2.2.2.2.1 _ _ _ (siblingsNext_walk h2),
      (C27_peek f).2.2.2.2.2.1 _ _ _ (siblingsNextBack_walk h2)⟩
  · have hc : Shallow.collapseMax um (some m) = some m := by simp [Shallow.collapseMax, hmu]
    have h0 := shallow_start um hm hx (some m)
    rw [hc] at h0
    refine ⟨_, h0, fun ds => ?_⟩
    obtain ⟨h1, h2⟩ := driveState_deque (st := shallowSt (some m)) (fun _ w => Walk.tail w)
      (fun _ w => Walk.dropLast w)
      (fun _ w => shallowNext_walk w) (fun _ w => shallowNextBack_walk w) ds _ (shallow_walk hm ht hx _)
    exact ⟨_, h1, (C27_peek f).2.2.1 _ _ _ (shallowNext_walk h2),
      (C27_peek f).2.2.2.1 _ _ _ (shallowNextBack_walk h2)⟩

/-! ### The sample -/

example : ∃ st, Sample.built.depthFirstTraverse 2 = .ok st ∧
    ∀ ds, drive Sample.built.dftNext Sample.built.dftNextBack st ds =
      .ok (dequeRun [.opn 2, .opn 4, .cls 4, .opn 5, .cls 5, .cls 2] ds) :=
  C20_dft_deque Sample.models (x := 2) rfl Sample.isTree2 rfl

example : ∃ st, Sample.built.depthFirstTraverse 0 = .ok st ∧
    ∀ n, pull Sample.built.dftNext n st = .ok (pulls
      [.opn 0, .opn 1, .cls 1, .opn 2, .opn 4, .cls 4, .opn 5, .cls 5, .cls 2, .opn 3, .cls 3, .cls 0] n) :=
  C19_depth_first Sample.models (x := 0) rfl Sample.isTree rfl

example : IteratesOver Sample.built.shallowNext Sample.built.shallowNextBack
    (Forest.shallowDepthFirstTraverse 1000 Sample.built 0 (some 1))
    [(.opn 0, 0), (.opn 1, 1), (.cls 1, 1), (.opn 2, 1), (.cls 2, 1), (.opn 3, 1), (.cls 3, 1), (.cls 0, 0)] :=
  ((C21_shallow 1000 Sample.models (x := 0) rfl Sample.isTree rfl).1 1 (by decide)).1

example : ∃ st, Forest.breadthFirstTraverse 1000 Sample.built 0 = .ok st ∧
    ∀ n, pull (Forest.bftNext 1000 Sample.built) n st =
      .ok (pulls [(0, 0), (1, 1), (2, 1), (3, 1), (4, 2), (5, 2)] n) :=
  C22_breadth_first 1000 Sample.models (x := 0) rfl Sample.isTree rfl

example : ∃ st, Sample.built.allocatingBreadthFirstTraverse 0 = .ok st ∧
    ∀ n, pull Sample.built.abftNext n st =
      .ok (pulls [(0, 0), (1, 1), (2, 1), (3, 1), (4, 2), (5, 2)] n) :=
  (C23_allocating Sample.models (x := 0) rfl Sample.isTree rfl).imp fun _ h => ⟨h.1, h.2.1⟩

/-- After the six nodes of the sample tree the hint is `(0, Some(0))`. -/
example : ∃ st st', Sample.built.allocatingBreadthFirstTraverse 0 = .ok st ∧ advance Sample.built.abftNext 6 st = .ok st' ∧
    Forest.abftSizeHint st' = (0, some 0) := by
  obtain ⟨st, h1, h2⟩ := C23_size_hint_ends Sample.models (x := 0) rfl Sample.isTree rfl
  obtain ⟨st', h3, h4, _⟩ := h2 6
  exact ⟨st, st', h1, h3, h4 rfl⟩

/-- From 4, the ancestors are 2 and 0. -/
example : ∃ st, Sample.built.ancestors 4 = .ok st ∧
    ∀ n, pull Sample.built.ancestorsNext n st = .ok (pulls [2, 0] n) := by
  obtain ⟨L, hL, -, h⟩ := C24_ancestors Sample.models (x := 4) rfl
  have : L = [4, 2, 0] := hL.unique (.step rfl (.step rfl (.root rfl)))
  rw [this] at h; exact h

example : IteratesOver Sample.built.siblingsNext Sample.built.siblingsNextBack
    (Sample.built.followingSiblings 1) [2, 3] := by
  obtain ⟨-, A, B, h, -, h1, -⟩ := C25_siblings Sample.models (x := 1) rfl
  have h2 : ([1, 2, 3] : List Nat) = A ++ 1 :: B := h 0 rfl
  have : B = [2, 3] := by
    rcases A with _ | ⟨a, _ | ⟨b, _ | ⟨c, A⟩⟩⟩ <;> simp at h2
    exact h2.symm
  rw [← this]; exact h1

/-! ### The hypotheses can be met

Each example applies the theorem named in its comment to a concrete forest. -/

section
/-- `C19_dead`: the removed node 7. -/
example := C19_dead Sample.models (x := 7) rfl

/-- `C23_agree`: node 0. -/
example := C23_agree 1000 Sample.models (x := 0) rfl

/-- `C24_duality`: nodes 0 and 5. -/
example := C24_duality Sample.models (a := 0) (y := 5) rfl rfl

/-- `C27_peek_allocating`: node 0, after two calls. -/
example : ∃ st st' o st'', Sample.built.allocatingBreadthFirstTraverse 0 = .ok st ∧ advance Sample.built.abftNext 2 st = .ok st' ∧
    Sample.built.abftNext st' = .ok (o, st'') ∧ Sample.built.abftPeek st' = .ok o :=
  ⟨_, _, _, _, rfl, rfl, rfl, C27_peek_allocating Sample.built (x := 0) (n := 2) rfl rfl rfl⟩

/-- `C27_peek_consistent`: node 0. -/
example := C27_peek_consistent 1000 Sample.models (x := 0) rfl Sample.isTree rfl

/-- `C37_each_node_once`: node 0. -/
example := C37_each_node_once 1000 Sample.models (x := 0) rfl

/-- `subtree_exists_unique`: node 2. -/
example := subtree_exists_unique Sample.models (x := 2) rfl

end

end Treena
