import Verif.Proof.StdIter
import Verif.Props.Pool
import Verif.Props.SampleRun
/-!
# C88: `for` loops and the other provided methods of iterators
-/
set_option autoImplicit false

namespace Treena
variable {T : Type} {f : Forest T} {s : Shape}

/-- **C88**.  At any time in any session of a client with a new forest, `for` loops, `try_fold`, `fold`, `count`, `last`, `collect`,
`nth`, `find` and `position` on any of its iterators end, and do what they do on the list of the items that the iterator has
still to give; a loop that is left early or whose body panics leaves the iterator with exactly the items not yet taken.  On the
double-ended iterators, the same holds at the back (`rfold`, `nth_back`, `rfind`, loops over `rev()`), with the reversed list. -/
theorem C88_loops (cap um : Nat) (cs : List (PoolReq T)) {y : Plain T × List Deck}
    (hy : Plain.poolState cap um cs (Plain.empty, []) = some y) {i : Nat} {it : Iter}
    (hi : (poolState cap um cs (Forest.new, [])).2[i]? = some it) :
    ∃ d, y.2[i]? = some d ∧
      LoopsOver (Iter.next um (poolState cap um cs (Forest.new, [])).1)
        (HasLeft um (poolState cap um cs (Forest.new, [])).1 d.kind.double) it d.rest ∧
      (d.kind.double = true → LoopsOver (Iter.nextBack' (poolState cap um cs (Forest.new, [])).1)
        (fun it L => HasLeft um (poolState cap um cs (Forest.new, [])).1 true it L.reverse) it d.rest.reverse) := by
  obtain ⟨s', h1, h2⟩ := pool_states cap um cs (plain_new (T := T)) (p := []) (q := []) .nil hy
  rcases h2.get i with ⟨it', d, h3, h4, h5⟩ | ⟨h3, _⟩
  · rw [hi] at h3
    cases h3
    exact ⟨d, h4, plays_loops h1.models h5, plays_loops_back h1.models h5⟩
  · rw [hi] at h3; cases h3

/-- **C88** for the iterators of any consistent forest: collected, each traversal of a tree is the list the documentation
promises, and counted it is the length of that list; `rev()` gives the reversed lists. -/
theorem C88_collect (um : Nat) (hm : Models f s) {x : Nat} (hx : s.alive x = true) {t : Tree Nat}
    (ht : Tree.IsTree s.kids t) (hr : t.root = x) :
    (∃ st, f.depthFirstTraverse x = .ok st ∧ ∀ n, 2 * t.count < n →
      StdIter.collect f.dftNext n st = .ok t.events ∧ StdIter.collect f.dftNextBack n st = .ok t.events.reverse ∧
      StdIter.count f.dftNext n st = .ok (2 * t.count)) ∧
    (∃ st, f.children x = .ok st ∧ ∀ n, (s.kids x).length < n →
      StdIter.collect f.siblingsNext n st = .ok (s.kids x) ∧ StdIter.collect f.siblingsNextBack n st = .ok (s.kids x).reverse ∧
      StdIter.count f.siblingsNext n st = .ok (s.kids x).length ∧
      ∀ k, ∃ st', StdIter.nth f.siblingsNext k st = .ok ((s.kids x)[k]?, st')) ∧
    (∃ st, Forest.breadthFirstTraverse um f x = .ok st ∧ ∀ n, t.count < n →
      StdIter.collect (Forest.bftNext um f) n st = .ok t.bfs ∧
      StdIter.count (Forest.bftNext um f) n st = .ok t.count) ∧
    (∃ st, f.allocatingBreadthFirstTraverse x = .ok st ∧ ∀ n, t.count < n →
      StdIter.collect f.abftNext n st = .ok t.bfs ∧ StdIter.count f.abftNext n st = .ok t.count) ∧
    (∃ L st, UpPath s.parent x L ∧ f.ancestorsOrSelf x = .ok st ∧ ∀ n, L.length < n →
      StdIter.collect f.ancestorsNext n st = .ok L ∧ StdIter.last f.ancestorsNext n st = .ok L.getLast?) := by
  have hl := (Tree.bfs_perm t).length_eq
  rw [List.length_map, Tree.length_preorder] at hl
  have key : ∀ {ι σ : Type} {next nextBack : σ → R (Option ι × σ)} {st : σ} {L : List ι}, Deq next nextBack st L →
      LoopsOver next (Deq next nextBack) st L ∧ LoopsOver nextBack (fun st L => Deq next nextBack st L.reverse) st L.reverse := by
    intro ι σ next nextBack st L h
    refine ⟨loopsOver (fun st L h => h.front) h, loopsOver (fun st L h => ?_) (by simpa using h)⟩
    obtain ⟨st', h1, h2⟩ := h.back
    exact ⟨st', by simpa using h1, by simpa using h2⟩
  have key1 : ∀ {ι σ : Type} {next : σ → R (Option ι × σ)} {st : σ} {L : List ι}, Seq1 next st L → LoopsOver next (Seq1 next) st L :=
    fun h => loopsOver (fun st L h => h.front) h
  refine ⟨?_, ?_, ?_, ?_, ?_⟩
  · obtain ⟨st, h1, h2⟩ := C20_dft_deque hm hx ht hr
    have hk := key h2
    refine ⟨st, h1, fun n hn => ?_⟩
    rw [← Tree.length_events] at hn ⊢
    exact ⟨hk.1.collect n hn, hk.2.collect n (by simpa using hn), hk.1.count n hn⟩
  · obtain ⟨⟨st, h1, _, h2⟩, _⟩ := C25_siblings hm hx
    have hk := key h2
    exact ⟨st, h1, fun n hn => ⟨hk.1.collect n hn, hk.2.collect n (by simpa using hn), hk.1.count n hn,
      fun k => (hk.1.nth k).imp fun _ h => h.1⟩⟩
  · obtain ⟨st, h1, h2⟩ := C22_breadth_first um hm hx ht hr
    have hk := key1 h2
    rw [← hl]
    exact ⟨st, h1, fun n hn => ⟨hk.collect n hn, hk.count n hn⟩⟩
  · obtain ⟨st, h1, h2, _⟩ := C23_allocating hm hx ht hr
    have hk := key1 h2
    rw [← hl]
    exact ⟨st, h1, fun n hn => ⟨hk.collect n hn, hk.count n hn⟩⟩
  · obtain ⟨L, hL, ⟨st, h1, h2⟩, _⟩ := C24_ancestors hm hx
    have hk := key1 h2
    exact ⟨L, st, hL, h1, fun n hn => ⟨hk.collect n hn, hk.last n hn⟩⟩

/-! ### The hypotheses can be met -/

section

/-- Two iterators, the second half used, over a tree of three nodes. -/
private def calls : List (PoolReq Char) :=
  [.call (.createRoot 'a'), .call (.createInsert 'b' (.lastChildOf 0)), .call (.createInsert 'c' (.lastChildOf 0)),
    .start (.abft 0), .start (.dft 0), .next 1, .nextBack 1]

/-- `C88_loops`: the depth-first iterator of this session. -/
example := C88_loops 10 100 calls rfl (i := 1) rfl

/-- A loop over it that is left at the second item, and what is still there then. -/
example : (StdIter.find (Iter.next 100 (poolState 10 100 calls (Forest.new, [])).1) (fun i => i = .event (.cls 1)) 9
      ((poolState 10 100 calls (Forest.new, [])).2[1]?.getD (.dft none))).bind
    (fun p => (StdIter.collect (Iter.nextBack' (poolState 10 100 calls (Forest.new, [])).1) 9 p.2).map fun l => (p.1, l)) =
    .ok (some (.event (.cls 1)), [.event (.cls 2), .event (.opn 2)]) := by rfl

/-- `C88_collect`: node 2 of the sample forest. -/
example := C88_collect 255 Sample.models (x := 2) rfl Sample.isTree2 rfl

/-- Its depth-first traversal, collected. -/
example : (Sample.built.depthFirstTraverse 2).bind (StdIter.collect Sample.built.dftNext 7) =
    .ok [.opn 2, .opn 4, .cls 4, .opn 5, .cls 5, .cls 2] := by rfl

end

end Treena
