import Verif.Proof.Footprint
import Verif.Props.Traverse
import Verif.Props.SampleRun
/-!
# Iterators look only at what they give (C72)

`f` is a consistent forest, `g` any forest value (consistent or not, of any data type), equal to `f` at some
nodes (`SameAt`).  The iterators of `g` then give the items of the iterators of `f` (C19-C25), so they do not depend on
the records of the other nodes: those are not looked at.
-/
set_option autoImplicit false

namespace Treena
open Shape
variable {T U : Type} {f : Forest T} {g : Forest U} {s : Shape}

/-- **C72**, "nodes deeper than the given limit are efficiently skipped" (`forest.rs` 108): a shallow traversal with
limit `m` gives the right items whatever the records of the nodes deeper than `m` (and outside of the subtree) are, at
either end and in any interleaving; it gives two items for each node of depth at most `m`. -/
theorem C72_shallow (um : Nat) (hm : Models f s) {x : Nat} (hx : s.alive x = true) {t : Tree Nat}
    (ht : Tree.IsTree s.kids t) (hr : t.root = x) {m : Nat} (hmu : m < um) (sa : SameAt (t.Within m) f g) :
    IteratesOver g.shallowNext g.shallowNextBack (Forest.shallowDepthFirstTraverse um g x (some m))
      ((t.devents 0).filter fun e => decide (e.2 ≤ m)) ∧
    ((t.devents 0).filter fun e => decide (e.2 ≤ m)).length = 2 * t.upTo m := by
  subst hr
  have hc : Shallow.collapseMax um (some m) = some m := by simp [Shallow.collapseMax, hmu]
  have hroot : t.Within m t.root := ⟨0, Nat.zero_le _, by cases t; simp [Tree.level, Tree.root]⟩
  have w := shallow_walk_at (g := g) hm ht hx (mx := some m)
    (sa.mono fun y ⟨d, h1, h2⟩ => ⟨d, h1 m rfl, h2⟩)
  have hst := shallow_start_at (g := g) um (t := t) (by rw [sa.isAlive hroot, hm.isAlive, hx])
    (by rw [sa.hierAlive hroot, hm.hierAlive, hx]) (some m)
  rw [hc] at hst
  refine ⟨⟨_, hst, fun n => pull_list (st := shallowSt _) (fun _ w => Walk.tail w)
    (fun _ w => shallowNext_walk w) n _ w, fun ds => drive_deque
      (P := Walk g (fun i => i.1.node) (Shallow.stepFwd g.hier (some m)) (Shallow.stepBack g.hier (some m)))
      (st := shallowSt (some m)) (fun _ w => w.tail) (fun _ w => w.dropLast) (fun _ w => shallowNext_walk w)
      (fun _ w => shallowNextBack_walk w) ds _ w⟩, ?_⟩
  simpa using Tree.length_devents_le t 0 m

/-- **C72**: a depth-first traversal looks only at the nodes of the subtree. -/
theorem C72_depth_first (hm : Models f s) {x : Nat} (hx : s.alive x = true) {t : Tree Nat}
    (ht : Tree.IsTree s.kids t) (hr : t.root = x) (sa : SameAt (fun y => y ∈ t.preorder) f g) :
    IteratesOver g.dftNext g.dftNextBack (g.depthFirstTraverse x) t.events := by
  subst hr
  have hroot := root_mem_preorder t
  have w := dft_walk_at (g := g) hm ht hx sa
  exact ⟨_, dft_start_at (by rw [sa.isAlive hroot, hm.isAlive, hx]) (by rw [sa.hierAlive hroot, hm.hierAlive, hx]),
    fun n => pull_list (st := ends) (fun _ w => Walk.tail w) (fun _ w => dftNext_walk w) n _ w,
    fun ds => drive_deque (P := Walk g Ev.node (Dft.stepFwd g.hier) (Dft.stepBack g.hier)) (st := ends)
      (fun _ w => w.tail) (fun _ w => w.dropLast) (fun _ w => dftNext_walk w)
      (fun _ w => dftNextBack_walk w) ds _ w⟩

/-- **C72**: the two breadth-first traversals look only at the nodes of the subtree. -/
theorem C72_breadth_first (um : Nat) (hm : Models f s) {x : Nat} (hx : s.alive x = true) {t : Tree Nat}
    (ht : Tree.IsTree s.kids t) (hr : t.root = x) (sa : SameAt (fun y => y ∈ t.preorder) f g) :
    (∃ st, Forest.breadthFirstTraverse um g x = .ok st ∧ ∀ n, pull (Forest.bftNext um g) n st = .ok (pulls t.bfs n)) ∧
    (∃ st, g.allocatingBreadthFirstTraverse x = .ok st ∧ ∀ n, pull g.abftNext n st = .ok (pulls t.bfs n)) := by
  subst hr
  have hv := hm.valid
  have hroot := root_mem_preorder t
  have hg := bft_ready_at (g := g) um hm ht hx sa
  constructor
  · obtain ⟨st, h1, h2⟩ := bft_start_of um hg
    exact ⟨st, h1, fun n => pull_inv (bftNext_inv_of um hg) n _ _ h2⟩
  · obtain ⟨st, h1, h2⟩ := abft_start hm ht hx
    have e0 : g.allocatingBreadthFirstTraverse t.root = .ok st := by
      rw [← h1]
      unfold Forest.allocatingBreadthFirstTraverse
      rw [iterNew_ok hg.isAlive, iterNew_ok (by rw [hm.isAlive, hx])]
      simp [ABft.withToplevel, hg.hierAlive, hm.hierAlive, hx]
    have hq : QIn (fun y => y ∈ t.preorder) st := by
      unfold Forest.allocatingBreadthFirstTraverse at h1
      rw [iterNew_ok (by rw [hm.isAlive, hx])] at h1
      simp [ABft.withToplevel, hm.hierAlive, hx] at h1
      subst h1
      intro y hy; simp at hy; subst hy; exact hroot
    refine ⟨st, e0, fun n => pull_inv (Inv := fun st rem => ABftInv s st rem ∧ QIn (fun y => y ∈ t.preorder) st)
      ?_ n _ _ ⟨h2, hq⟩⟩
    rintro st rem ⟨hi, hq⟩
    obtain ⟨st', a1, a2, a3⟩ := abft_next hm st rem hi
    obtain ⟨b1, b2⟩ := abft_nextLoop_at hm sa (fun y hy => Tree.mem_alive hv ht hx hy)
      (fun y hy c hc => preorder_kids hv ht hy hc) (fun y hy => by
        refine Nat.le_trans ?_ (count_le_at hm ht hx sa)
        rw [← Tree.length_preorder]
        exact ((List.subperm_of_subset (hv.kids_nodup y) fun c hc => preorder_kids hv ht hy hc)).length_le)
      (st.events.length + 2) st hq
    refine ⟨st', ?_, a2, (b2 _ _ a1).1⟩
    unfold Forest.abftNext
    have : ABft.next g.hier st = ABft.next f.hier st := b1
    rw [this, a1]
    refine emit_ok fun i hi' => ?_
    rw [sa.isAlive ((b2 _ _ a1).2 i hi')]
    exact a3 i hi'

/-- **C72**: `ancestors_or_self` and `ancestors` look only at the nodes of the path to the root. -/
theorem C72_ancestors (hm : Models f s) {x : Nat} (hx : s.alive x = true) {L : List Nat} (hL : UpPath s.parent x L)
    (sa : SameAt (fun y => y ∈ L) f g) :
    (∃ st, g.ancestorsOrSelf x = .ok st ∧ ∀ n, pull g.ancestorsNext n st = .ok (pulls L n)) ∧
    (∃ st, g.ancestors x = .ok st ∧ ∀ n, pull g.ancestorsNext n st = .ok (pulls L.tail n)) := by
  have hu : UpTo s L := .inr ⟨x, hx, hL⟩
  have hxL : x ∈ L := List.mem_of_mem_head? hL.head?
  have key : ∀ n K, UpTo s K ∧ (∀ y ∈ K, y ∈ L) → pull g.ancestorsNext n K.head? = .ok (pulls K n) := fun n =>
    pull_list (st := fun K => K.head?) (P := fun K => UpTo s K ∧ ∀ y ∈ K, y ∈ L)
      (fun K hK => ⟨(hK.1.next hm).2, fun y hy => hK.2 y (List.mem_of_mem_tail hy)⟩)
      (fun K hK => hK.1.next_at hm (sa.mono hK.2)) n
  have e1 : g.ancestorsOrSelf x = .ok L.head? := by
    unfold Forest.ancestorsOrSelf
    rw [iterNew_ok (by rw [sa.isAlive hxL, hm.isAlive, hx]), hL.head?]
    simp [Ancestors.withStart, sa.hierAlive hxL, hm.hierAlive, hx]
  refine ⟨⟨_, e1, fun n => key n L ⟨hu, fun _ h => h⟩⟩, ⟨L.tail.head?, ?_, fun n => key n _
    ⟨(hu.next hm).2, fun y hy => List.mem_of_mem_tail hy⟩⟩⟩
  simp only [Forest.ancestors, Forest.skipped, e1, hu.next_at hm sa]

/-- **C72**: `children` looks only at the node and its children; the sibling iterators only at the siblings and the
parent. -/
theorem C72_siblings (hm : Models f s) {x : Nat} (hx : s.alive x = true) :
    (SameAt (fun y => y = x ∨ y ∈ s.kids x) f g →
      IteratesOver g.siblingsNext g.siblingsNextBack (g.children x) (s.kids x)) ∧
    (SameAt (fun y => y = x ∨ ∃ p, s.parent x = some p ∧ (y = p ∨ y ∈ s.kids p)) f g →
      ∃ A B, (∀ p, s.parent x = some p → s.kids p = A ++ x :: B) ∧ (s.parent x = none → A = [] ∧ B = []) ∧
      IteratesOver g.siblingsNext g.siblingsNextBack (g.followingSiblings x) B ∧
      IteratesOver g.siblingsNext g.siblingsNextBack (g.followingSiblingsOrSelf x) (x :: B) ∧
      IteratesOver g.siblingsNext g.siblingsNextBack (g.precedingSiblings x) A ∧
      IteratesOver g.siblingsNext g.siblingsNextBack (g.precedingSiblingsOrSelf x) (A ++ [x])) := by
  refine ⟨fun sa => siblings_iterates (sib_walk_at hm (sa.mono fun y hy => .inr hy)) (children_start_at hm hx sa), ?_⟩
  intro sa
  replace sa : SameAt (SibRow s x) f g := sa.mono fun y hy => by
    rcases hy with hy | hy
    · cases e : s.parent x with
      | none => rw [Shape.sibs_root e] at hy; simp at hy; exact .inl hy
      | some p => rw [Shape.sibs_child e] at hy; exact .inr ⟨p, rfl, .inr hy⟩
    · exact .inr ⟨y, hy, .inl rfl⟩
  have hs := sibs_split hm.valid x
  have wf := following_walk_at hm hx sa
  have wp := preceding_walk_at hm hx sa
  have ef := following_start_at hm hx sa
  have ep := preceding_start_at hm hx sa
  refine ⟨before (s.sibs x) x, after (s.sibs x) x, fun p hp => ?_, fun hp => ?_, ?_, ?_, ?_, ?_⟩
  · rw [hs]; simp [Shape.sibs, hp]
  · have : s.sibs x = [x] := by simp [Shape.sibs, hp]
    simp [this, before, after]
  · refine siblings_iterates (Walk.tail (L := x :: _) wf) ?_
    simp only [Forest.followingSiblings, Forest.skipped, ef, siblingsNext_walk wf, List.tail_cons]
  · exact siblings_iterates wf ef
  · refine siblings_iterates (Walk.left wp) ?_
    simp only [Forest.precedingSiblings, Forest.skipped, ep, siblingsNextBack_walk wp, List.dropLast_concat]
  · exact siblings_iterates wp ep

/-- In the sample, the nodes of depth at most 1 below node 0 are 0, 1, 2, 3.  With the records of all other nodes
overwritten by arbitrary ones, the shallow traversal with limit 1 gives the four nodes, opened and closed. -/
example (junk : Nat → Neighbors) :
    IteratesOver (Sample.built.scramble (fun y => decide (y < 4)) junk).shallowNext
      (Sample.built.scramble (fun y => decide (y < 4)) junk).shallowNextBack
      (Forest.shallowDepthFirstTraverse 1000 (Sample.built.scramble (fun y => decide (y < 4)) junk) 0 (some 1))
      [(.opn 0, 0), (.opn 1, 1), (.cls 1, 1), (.opn 2, 1), (.cls 2, 1), (.opn 3, 1), (.cls 3, 1), (.cls 0, 0)] := by
  have := (C72_shallow 1000 Sample.models (x := 0) rfl Sample.isTree rfl (m := 1) (by decide)
    ((sameAt_scramble Sample.built (fun y => decide (y < 4)) junk).mono ?_)).1
  · exact this
  · rintro y ⟨d, hd, hy⟩
    have : d = 0 ∨ d = 1 := by omega
    rcases this with rfl | rfl
    · simp [Sample.tree, Tree.level] at hy; subst hy; decide
    · simp [Sample.tree, Tree.level, Tree.levelL] at hy
      rcases hy with rfl | rfl | rfl <;> decide

/-- With a limit of 2 the traversal does look deeper: with the record of node 4 overwritten it fails. -/
example : ∃ st msg, Forest.shallowDepthFirstTraverse 1000
      (Sample.built.scramble (fun y => decide (y < 4)) fun _ => Neighbors.removed) 0 (some 2) = .ok st ∧
    pull (Sample.built.scramble (fun y => decide (y < 4)) fun _ => Neighbors.removed).shallowNext 10 st =
      .error (.panic msg) := ⟨_, _, rfl, rfl⟩

/-! ### The hypotheses can be met

Each example applies the theorem named in its comment to a concrete forest. -/

section
/-- `C72_depth_first`: a forest that differs outside of the tree of node 2. -/
example := C72_depth_first Sample.models (x := 2) rfl Sample.isTree2 rfl (g := (Forest.createRoot 100 42 Sample.built).state) ⟨by decide, by decide⟩

/-- `C72_breadth_first`: the same. -/
example := C72_breadth_first 1000 Sample.models (x := 2) rfl Sample.isTree2 rfl (g := (Forest.createRoot 100 42 Sample.built).state) ⟨by decide, by decide⟩

/-- `C72_ancestors`: the path from node 4; the forest differs in node 6. -/
example := C72_ancestors Sample.models (x := 4) rfl (L := [4, 2, 0]) (.step rfl (.step rfl (.root rfl))) (g := (Forest.remove 6 Sample.built).state) ⟨by decide, by decide⟩

/-- `C72_siblings`: node 2; the forest differs in node 6. -/
example := (C72_siblings Sample.models (x := 2) rfl (g := (Forest.remove 6 Sample.built).state)).1
  ⟨by rintro y (rfl | hy)
      · decide
      · exact (by decide : ∀ y ∈ Sample.shape.kids 2, (Forest.remove 6 Sample.built).state.hier.neighbors y = Sample.built.hier.neighbors y) y hy,
    by rintro y (rfl | hy)
       · decide
       · exact (by decide : ∀ y ∈ Sample.shape.kids 2, ((Forest.remove 6 Sample.built).state.getData y).isSome = (Sample.built.getData y).isSome) y hy⟩

end

end Treena
