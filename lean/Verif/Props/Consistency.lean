import Verif.Proof.Consist
import Mathlib.Data.List.Perm.Subperm
import Verif.Props.Traverse
import Verif.Props.History
import Verif.Props.SampleRun
/-!
# Consistency of all histories (C05, C06)

The two properties are false of the code, because of in-place insertions (C08) and hooks that panic (C40).
Proved here: these are the only calls that can destroy a forest, and they always do.
-/
set_option autoImplicit false

namespace Treena
variable {T : Type} {f : Forest T} {s : Shape} {cap : Nat}

theorem new_consistent : Consistent (Forest.new : Forest T) := ⟨_, Sample.new_models⟩

/-- One call on a consistent forest, whichever it is, whatever its arguments, returning or panicking: the
forest is consistent afterwards if and only if the call was not one of the harmful ones (an insertion of
a node where it already is, or a `remove_hooked` whose hook panicked while the node still was live).  After a
harmful call the accessors contradict each other. -/
theorem C05_one_call (hc : Consistent f) (op : Op T) :
    (Consistent (Op.step cap f op) ↔ ¬ op.Harmful f) ∧
    (op.Harmful f → Undescribable (Op.step cap f op)) := by
  obtain ⟨s, hm⟩ := hc
  rcases step_cases (cap := cap) hm op with ⟨h1, h2⟩ | ⟨h1, h2⟩
  · exact ⟨⟨fun _ => h2, fun _ => h1⟩, fun h => absurd h h2⟩
  · exact ⟨⟨fun h => absurd h h1.not_consistent, fun h => absurd h2 h⟩, fun _ => h1⟩

/-- **C05** (partial).  After every history without harmful calls (calls that panic or return errors are
allowed), the accessors describe one well-formed ordered forest.

Missing for the full claim: histories with harmful calls; for those it is false, see `C05_false`. -/
theorem C05_links_consistent_partial (ops : List (Op T)) (hc : Careful cap Forest.new ops) :
    ∃ s : Shape, s.Valid ∧ Describes (Op.run cap Forest.new ops) s ∧ Models (Op.run cap Forest.new ops) s := by
  obtain ⟨s, hm⟩ := run_careful ops Forest.new new_consistent hc
  exact ⟨s, hm.valid, hm.describes, hm⟩

/-- The first harmful call of a history is the first moment at which the forest is not consistent: before it,
every intermediate state is consistent; after it, the accessors contradict each other. -/
theorem C05_first_harm (ops1 ops2 : List (Op T)) (op : Op T) (hc : Careful cap Forest.new ops1)
    (hh : op.Harmful (Op.run cap Forest.new ops1)) :
    (∀ ops, ops <+: ops1 → Consistent (Op.run cap Forest.new ops)) ∧
    Undescribable (Op.run cap Forest.new (ops1 ++ [op])) ∧ ¬ Careful cap Forest.new (ops1 ++ op :: ops2) := by
  have hpre : ∀ (ops rest : List (Op T)) (g : Forest T), Careful cap g (ops ++ rest) →
      Careful cap g ops ∧ Careful cap (Op.run cap g ops) rest := by
    intro ops
    induction ops with
    | nil => exact fun rest g h => ⟨trivial, h⟩
    | cons o ops ih => exact fun rest g h => ⟨⟨h.1, (ih rest _ h.2).1⟩, (ih rest _ h.2).2⟩
  refine ⟨?_, ?_, ?_⟩
  · rintro ops ⟨rest, rfl⟩
    exact run_careful ops _ new_consistent (hpre ops rest _ hc).1
  · have : Op.run cap (Forest.new : Forest T) (ops1 ++ [op]) = Op.step cap (Op.run cap Forest.new ops1) op := by
      simp [Op.run]
    rw [this]
    exact (C05_one_call (run_careful ops1 _ new_consistent hc) op).2 hh
  · exact fun h => (hpre ops1 (op :: ops2) _ h).2.1 hh

/-- **C05 is false of the code**: a history of four calls, all of them returning `Ok`, after which the
accessors contradict each other. -/
theorem C05_false : ∃ ops : List (Op Nat), Smooth 100 Forest.new ops ∧
    Undescribable (Op.run 100 Forest.new ops) := by
  refine ⟨[.createRoot 10, .createInsert 11 (.lastChildOf 0), .createInsert 12 (.lastChildOf 0)] ++
    [.insert 2 (.lastChildOf 0)], ?_, (C05_first_harm _ [] _ ?_ ?_).2.1⟩
  · simp only [Smooth, List.cons_append, List.nil_append]; decide
  · simp [Careful, Op.Harmful]
  · show Forest.lastChildId _ _ = _
    decide

/-! ### C06 -/

theorem climbs_of_upPath (hm : Models f s) {x : Nat} {l : List Nat} (h : UpPath s.parent x l)
    (hx : s.alive x = true) : ClimbsTo f x l ∧ ∀ y ∈ l, s.alive y = true := by
  induction h with
  | root h0 => exact ⟨.root (by rw [hm.describes.parent _ hx, h0]), by simpa using hx⟩
  | step hp _ ih =>
    obtain ⟨h1, h2⟩ := ih (hm.valid.parent_alive _ _ hp).2
    exact ⟨.step (by rw [hm.describes.parent _ hx, hp]) h1, by simpa using ⟨hx, h2⟩⟩

/-- **C06** (partial).  After every history without harmful calls, following `parent_id` from any live node
ends at a root; no node is met twice; the number of nodes met is at most the number of live nodes; and
`ancestors_or_self` yields exactly these nodes and then `None` for ever.

Missing for the full claim: histories with harmful calls; for those it is false, see `C06_false`. -/
theorem C06_no_cycles_partial (ops : List (Op T)) (hc : Careful cap Forest.new ops) {x : Nat}
    (hx : (Op.run cap Forest.new ops).isAlive x = true) :
    ∃ l, ClimbsTo (Op.run cap Forest.new ops) x l ∧ l.Nodup ∧
      l.length ≤ (Op.run cap Forest.new ops).liveNodes.length ∧
      ∃ st, (Op.run cap Forest.new ops).ancestorsOrSelf x = .ok st ∧
        ∀ n, pull (Op.run cap Forest.new ops).ancestorsNext n st = .ok (pulls l n) := by
  obtain ⟨s, hm⟩ := run_careful ops (Forest.new : Forest T) new_consistent hc
  rw [hm.isAlive] at hx
  obtain ⟨l, hl, h1, _⟩ := C24_ancestors hm hx
  obtain ⟨h2, h3⟩ := climbs_of_upPath hm hl hx
  refine ⟨l, h2, hl.nodup, ?_, h1⟩
  refine (List.subperm_of_subset hl.nodup fun y hy => ?_).length_le
  have hy' := h3 y hy
  simp only [Forest.liveNodes, List.mem_filter, List.mem_range]
  exact ⟨by rw [hm.dataLen]; exact hm.valid.alive_lt y hy', by rw [hm.isAlive]; exact hy'⟩

/-- The history used by `C06_false`. -/
def cycleHistory : List (Op Nat) :=
  [.createRoot 10, .createInsert 11 (.lastChildOf 0), .createInsert 12 (.lastChildOf 0), .createRoot 13,
    .createInsert 14 (.lastChildOf 3), .insert 1 (.firstChildOf 0), .insert 2 (.firstChildOf 4),
    .insert 0 (.firstChildOf 2), .insert 1 (.previousSiblingOf 4)]

/-- **C06 is false of the code**: a history of nine calls, all of them returning `Ok`, after which two live
nodes are each other's parent.  `ancestors_or_self` yields them alternately without end. -/
theorem C06_false : ∃ (ops : List (Op Nat)) (f : Forest Nat), f = Op.run 100 Forest.new ops ∧
    Smooth 100 Forest.new ops ∧ f.isAlive 0 = true ∧ f.isAlive 2 = true ∧
    f.parentId 0 = .ok (some 2) ∧ f.parentId 2 = .ok (some 0) ∧
    (¬ ∃ l, ClimbsTo f 0 l) ∧
    ∃ st, f.ancestorsOrSelf 0 = .ok st ∧ ∀ n, ∃ items, pull f.ancestorsNext n st = .ok items ∧
      items.length = n ∧ ∀ i ∈ items, i = some 0 ∨ i = some 2 := by
  have h02 : (Op.run 100 Forest.new cycleHistory).parentId 0 = .ok (some 2) := by decide
  have h20 : (Op.run 100 Forest.new cycleHistory).parentId 2 = .ok (some 0) := by decide
  refine ⟨cycleHistory, _, rfl, ?_, by decide, by decide, h02, h20, ?_, ?_⟩
  · simp only [Smooth, cycleHistory]; decide
  · generalize Op.run 100 Forest.new cycleHistory = f at h02 h20
    rintro ⟨l, hl⟩
    have key : ∀ l, ¬ ClimbsTo f 0 l ∧ ¬ ClimbsTo f 2 l := by
      intro l
      induction l with
      | nil => constructor <;> (intro h; cases h)
      | cons a l ih =>
        constructor
        · intro h
          cases h with
          | root h => rw [h02] at h; cases h
          | step h h' => rw [h02] at h; cases h; exact ih.2 h'
        · intro h
          cases h with
          | root h => rw [h20] at h; cases h
          | step h h' => rw [h20] at h; cases h; exact ih.1 h'
    exact (key l).1 hl
  · have e0 : (Op.run 100 Forest.new cycleHistory).ancestorsNext (some 0) = .ok (some 0, some 2) := by decide
    have e2 : (Op.run 100 Forest.new cycleHistory).ancestorsNext (some 2) = .ok (some 2, some 0) := by decide
    refine ⟨some 0, by decide, fun n => ?_⟩
    generalize Op.run 100 Forest.new cycleHistory = f at e0 e2
    have key : ∀ n, (∃ items, pull f.ancestorsNext n (some 0) = .ok items ∧
        items.length = n ∧ ∀ i ∈ items, i = some 0 ∨ i = some 2) ∧
        (∃ items, pull f.ancestorsNext n (some 2) = .ok items ∧
        items.length = n ∧ ∀ i ∈ items, i = some 0 ∨ i = some 2) := by
      intro n
      induction n with
      | zero => exact ⟨⟨[], rfl, rfl, by simp⟩, ⟨[], rfl, rfl, by simp⟩⟩
      | succ n ih =>
        obtain ⟨⟨l0, a0, b0, c0⟩, ⟨l2, a2, b2, c2⟩⟩ := ih
        refine ⟨⟨some 0 :: l2, ?_, by simp [b2], ?_⟩, ⟨some 2 :: l0, ?_, by simp [b0], ?_⟩⟩
        · simp [pull, e0, a2]
        · intro i hi
          rcases List.mem_cons.1 hi with rfl | hi
          · exact .inl rfl
          · exact c2 i hi
        · simp [pull, e2, a0]
        · intro i hi
          rcases List.mem_cons.1 hi with rfl | hi
          · exact .inr rfl
          · exact c0 i hi
    exact (key n).1

/-! ### C07 and C39, for every `insert` that returned `Ok` -/

/-- **C07** (partial).  On a consistent forest of shape `s`, after an `insert(x, dest)` that returned `Ok` (and
was not a harmful in-place request), the forest has a shape `s'` in which `x` is at `dest`; its parent is the
prospective parent `P`, no other node changes its parent, every child list is unchanged up to taking `x` out /
putting it in, the subtree of `x` is unchanged, liveness and all data are unchanged.

Missing for the full claim: harmful in-place requests; for those it is false, see
`C08_insert_in_place_corrupts`. -/
theorem C07_insert_ok_partial (hm : Models f s) {x : Nat} {d : InsertAs} {f1 : Forest T}
    (h : Forest.insert x d f = .ok (.ok ()) f1) (hn : ¬ InPlace f x d) :
    ∃ s' P, s.placeParent d.place = some P ∧ Models f1 s' ∧ Describes f1 s' ∧
      f1.data = f.data ∧ s'.size = s.size ∧ s'.alive = s.alive ∧
      s'.At x d.place ∧
      (∀ y, s'.parent y = if y = x then some P else s.parent y) ∧
      (∀ q, (s'.kids q).erase x = (s.kids q).erase x) ∧
      (∀ t : Tree Nat, Tree.IsTree s.kids t → t.root = x → Tree.IsTree s'.kids t) := by
  by_cases hat : s.At x d.place
  · have : ∃ P, d = .firstChildOf P ∧ s.kids P = [x] := by
      by_cases hno : ∃ P, d = .firstChildOf P ∧ s.kids P = [x]
      · exact hno
      · exact absurd ((inPlace_iff hm).2 ⟨hat, hno⟩) hn
    obtain ⟨P, rfl, hk⟩ := this
    rw [C08_insert_only_child_first_partial hm hk] at h
    cases h
    refine ⟨s, P, rfl, hm, hm.describes, rfl, rfl, rfl, hat, fun y => ?_, fun _ => rfl, fun _ ht _ => ht⟩
    split
    · rename_i e; subst e; exact hm.valid.kid_parent (by rw [hk]; simp)
    · rfl
  · obtain ⟨hx, ha, hne, P, hpp, hcyc⟩ := insert_ok_inv hm h
    obtain ⟨f', s', h1, h2⟩ := C07_insert_moves_partial hm hx ha hne hpp hcyc hat
    rw [h] at h1; cases h1
    exact ⟨s', P, hpp, h2⟩

/-- **C39** (partial).  On a consistent forest, after an `insert(x, dest)` that returned `Ok` (and was not a
harmful in-place request), `detach(x)` succeeds and gives the very forest (links and data) that `detach(x)`
alone gives on the original forest.

Missing for the full claim: harmful in-place requests, for which it is false (`C39_false`). -/
theorem C39_insert_then_detach_partial (hc : Consistent f) {x : Nat} {d : InsertAs} {f1 : Forest T}
    (h : Forest.insert x d f = .ok (.ok ()) f1) (hn : ¬ InPlace f x d) :
    ∃ f2, Forest.detach x f1 = .ok () f2 ∧ Forest.detach x f = .ok () f2 := by
  obtain ⟨s, hm⟩ := hc
  by_cases hat : s.At x d.place
  · have : ∃ P, d = .firstChildOf P ∧ s.kids P = [x] := by
      by_cases hno : ∃ P, d = .firstChildOf P ∧ s.kids P = [x]
      · exact hno
      · exact absurd ((inPlace_iff hm).2 ⟨hat, hno⟩) hn
    obtain ⟨P, rfl, hk⟩ := this
    rw [C08_insert_only_child_first_partial hm hk] at h
    cases h
    have hx : s.alive x = true := (hm.valid.parent_alive x P (hm.valid.kid_parent (by rw [hk]; simp))).1
    obtain ⟨f2, h2, _⟩ := forest_detach_models hm hx
    exact ⟨f2, h2, h2⟩
  · obtain ⟨hx, ha, hne, P, hpp, hcyc⟩ := insert_ok_inv hm h
    obtain ⟨f1', f2, h1, h2, h3⟩ := insert_then_detach hm hx ha hne hpp hcyc hat
    rw [h] at h1; cases h1
    exact ⟨f2, h2, h3⟩

/-- **C39 is false of the code** for in-place requests: the children of 0 being 1, 2, after
`insert(2, LastChildOf(0))` and `detach(2)` the node 0 has no first child any more. -/
theorem C39_false : ∃ f : Forest Nat, Consistent f ∧ ∃ f1 f2 f3, Forest.insert 2 (.lastChildOf 0) f = .ok (.ok ()) f1 ∧
    Forest.detach 2 f1 = .ok () f2 ∧ Forest.detach 2 f = .ok () f3 ∧
    f2.firstChildId 0 = .ok none ∧ f3.firstChildId 0 = .ok (some 1) := by
  refine ⟨Op.run 100 Forest.new [.createRoot 10, .createInsert 11 (.lastChildOf 0), .createInsert 12 (.lastChildOf 0)],
    run_careful _ _ new_consistent (by simp [Careful, Op.Harmful]), _, _, _, rfl, rfl, rfl, ?_, ?_⟩ <;> decide

/-! ### Examples -/

example : ∃ f1, Forest.insert 4 (.lastChildOf 1) Sample.built = .ok (.ok ()) f1 ∧
    ¬ InPlace Sample.built 4 (.lastChildOf 1) := by
  refine ⟨_, rfl, ?_⟩
  show ¬ Forest.lastChildId _ _ = _
  decide


/-- A careful history: creation, moves, a call that panics (node 9 does not exist), a call that returns an
error (a node into its own subtree), removal. -/
example : Careful 100 (Forest.new : Forest Nat)
    [.createRoot 10, .createInsert 11 (.lastChildOf 0), .createInsert 12 (.lastChildOf 0), .detach 9,
      .insert 2 (.firstChildOf 0), .insert 0 (.lastChildOf 1), .remove 1] := by
  simp only [Careful, Op.Harmful, InPlace, not_false_iff, and_true, true_and]
  decide

/-- A hook panicking at its first call, on a tree of more than one node, is harmful. -/
example : (Op.removeHooked Unit (fun (_ : Unit) (_ : Nat) => .error ()) () 0).Harmful Sample.built :=
  ⟨_, _, _, rfl, by decide⟩

/-! ### The hypotheses can be met

Each example applies the theorem named in its comment to a concrete forest. -/

section
/-- `C05_links_consistent_partial`: the history of the sample forest. -/
example := C05_links_consistent_partial Sample.ops Sample.careful

/-- `C05_one_call`: any call, here a detach. -/
example := C05_one_call (cap := 100) Sample.consistent (.detach 2)

/-- `C06_no_cycles_partial`: node 4 of the sample forest. -/
example := C06_no_cycles_partial Sample.ops Sample.careful (x := 4) (by decide)

/-- `C07_insert_ok_partial`: node 2 moved to node 6, and node 4 to node 1. -/
example := C07_insert_ok_partial Sample.models (x := 2) (d := .lastChildOf 6) rfl (show ¬ Forest.lastChildId _ _ = _ by decide)

/-- `C07_insert_ok_partial`: node 2 moved to node 6, and node 4 to node 1 (continued). -/
example := C07_insert_ok_partial Sample.models (x := 4) (d := .nextSiblingOf 1) rfl (show ¬ Forest.nextSiblingId _ _ = _ by decide)

/-- `C39_insert_then_detach_partial`: node 2 moved to node 6. -/
example := C39_insert_then_detach_partial Sample.consistent (x := 2) (d := .lastChildOf 6) rfl (show ¬ Forest.lastChildId _ _ = _ by decide)

end

end Treena
