import Verif.Proof.Careless
import Verif.Proof.Taint
import Verif.Spec.Careful
import Verif.Props.SampleRun
/-!
# C86: what no history can do to sibling links, and what careless ones can

`Reachable`/`Op.run` range over all histories: careless requests, panicking hooks and clones, panics half-way.
-/
set_option autoImplicit false

namespace Treena
variable {T : Type} {f : Forest T} {cap : Nat}

theorem sane_accessors (hs : f.hier.Sane) (x : Nat) :
    f.nextSiblingId x ≠ .ok (some x) ∧ (f.parentId x = .ok none → f.nextSiblingId x = .ok none) := by
  unfold Forest.nextSiblingId Forest.parentId Forest.nbr
  by_cases hl : f.hier.live x
  · have ha : (f.hier.get x).isAlive = true := hl
    simp only [Hier.neighbors_live hl, expect, Neighbors.nextSibling, Neighbors.getParent, ha, Bool.not_true, if_neg Bool.false_ne_true]
    exact ⟨fun e => (hs x).1 (Except.ok.inj e), fun e => by rw [(hs x).2 (Except.ok.inj e)]⟩
  · simp [Hier.neighbors_dead hl, expect]

/-- **C86**: after any history whatsoever, no node is its own next sibling. -/
theorem C86_next_never_self (h : Reachable cap f) (x : Nat) : f.nextSiblingId x ≠ .ok (some x) := by
  obtain ⟨ops, rfl⟩ := h
  exact (sane_accessors (run_sane ops _ sane_new) x).1

/-- **C86**: after any history whatsoever, a node without a parent has no next sibling. -/
theorem C86_root_has_no_next (h : Reachable cap f) {x : Nat} (hx : f.parentId x = .ok none) : f.nextSiblingId x = .ok none := by
  obtain ⟨ops, rfl⟩ := h
  exact (sane_accessors (run_sane ops _ sane_new) x).2 hx

/-- **C86**, in release builds. -/
theorem C86_release (ops : List (Op T)) (x : Nat) :
    (Release.run cap Forest.new ops).nextSiblingId x ≠ .ok (some x) ∧
      ((Release.run cap Forest.new ops).parentId x = .ok none → (Release.run cap Forest.new ops).nextSiblingId x = .ok none) :=
  sane_accessors (Release.run_sane ops _ sane_new) x

/-- Three roots. -/
def threeRoots : List (Op Nat) := [.createRoot 10, .createRoot 11, .createRoot 12]
/-- Four roots. -/
def fourRoots : List (Op Nat) := threeRoots ++ [.createRoot 13]

/-- Some history, all of whose calls return `Ok`, leads to a forest with the property `P`. -/
def CanBe (P : Forest Nat → Prop) : Prop := ∃ ops : List (Op Nat), Smooth 100 Forest.new ops ∧ P (Op.run 100 Forest.new ops)

/-- The history after which two nodes are each other's next sibling. -/
def carousel : List (Op Nat) := threeRoots ++ [.insert 0 (.firstChildOf 1), .insert 2 (.previousSiblingOf 0), .insert 0 (.nextSiblingOf 2),
  .insert 0 (.previousSiblingOf 2)]

/-- **C86, the rest is possible**: there are histories, all of whose calls return `Ok`, after which a node is its own previous sibling. -/
theorem C86_own_prev : CanBe fun f => f.prevSiblingId 2 = .ok (some 2) :=
  ⟨threeRoots ++ [.insert 0 (.firstChildOf 1), .insert 2 (.previousSiblingOf 0), .insert 0 (.nextSiblingOf 2)],
    by simp only [Smooth, threeRoots, List.cons_append, List.nil_append]; decide, by decide⟩
/-- … its own parent. -/
theorem C86_own_parent : CanBe fun f => f.parentId 0 = .ok (some 0) :=
  ⟨threeRoots ++ [.insert 0 (.firstChildOf 1), .insert 2 (.previousSiblingOf 0), .insert 0 (.nextSiblingOf 2), .insert 2 (.firstChildOf 0),
      .insert 0 (.firstChildOf 1), .insert 2 (.lastChildOf 0)],
    by simp only [Smooth, threeRoots, List.cons_append, List.nil_append]; decide, by decide⟩
/-- … its own first child. -/
theorem C86_own_first_child : CanBe fun f => f.firstChildId 1 = .ok (some 1) :=
  ⟨fourRoots ++ [.insert 0 (.firstChildOf 1), .insert 1 (.firstChildOf 2), .insert 3 (.previousSiblingOf 0), .insert 0 (.nextSiblingOf 3),
      .insert 3 (.previousSiblingOf 1), .insert 3 (.firstChildOf 1), .detach 3],
    by simp only [Smooth, fourRoots, threeRoots, List.cons_append, List.nil_append]; decide, by decide⟩
/-- … its own last child. -/
theorem C86_own_last_child : CanBe fun f => f.lastChildId 0 = .ok (some 0) :=
  ⟨threeRoots ++ [.insert 0 (.firstChildOf 1), .insert 2 (.previousSiblingOf 0), .insert 0 (.nextSiblingOf 2), .insert 2 (.firstChildOf 0),
      .insert 0 (.firstChildOf 1)],
    by simp only [Smooth, threeRoots, List.cons_append, List.nil_append]; decide, by decide⟩
/-- Two nodes may become each other's next sibling. -/
theorem C86_next_cycle : CanBe fun f => f.nextSiblingId 0 = .ok (some 2) ∧ f.nextSiblingId 2 = .ok (some 0) :=
  ⟨carousel, by simp only [Smooth, carousel, threeRoots, List.cons_append, List.nil_append]; decide, by decide⟩
/-- Two nodes may become each other's first child. -/
theorem C86_first_child_cycle : CanBe fun f => f.firstChildId 1 = .ok (some 2) ∧ f.firstChildId 2 = .ok (some 1) :=
  ⟨threeRoots ++ [.insert 0 (.firstChildOf 1), .insert 2 (.previousSiblingOf 0), .insert 0 (.nextSiblingOf 2), .detachSingle 1,
      .insert 1 (.firstChildOf 2)],
    by simp only [Smooth, threeRoots, List.cons_append, List.nil_append]; decide, by decide⟩
/-- A node without a parent may have a previous sibling. -/
theorem C86_root_with_prev : CanBe fun f => f.parentId 1 = .ok none ∧ f.prevSiblingId 1 = .ok (some 3) :=
  ⟨fourRoots ++ [.insert 0 (.firstChildOf 1), .insert 1 (.firstChildOf 2), .insert 3 (.previousSiblingOf 1), .insert 3 (.previousSiblingOf 1),
      .detachSingle 1, .insert 0 (.nextSiblingOf 3)],
    by simp only [Smooth, fourRoots, threeRoots, List.cons_append, List.nil_append]; decide, by decide⟩
/-- A live node may have a removed next sibling. -/
theorem C86_dead_next : CanBe fun f => f.nextSiblingId 2 = .ok (some 0) ∧ f.isAlive 2 = true ∧ f.isAlive 0 = false :=
  ⟨threeRoots ++ [.insert 0 (.firstChildOf 1), .insert 2 (.previousSiblingOf 0), .insert 2 (.previousSiblingOf 0), .remove 1],
    by simp only [Smooth, threeRoots, List.cons_append, List.nil_append]; decide, by decide⟩
/-- A live node may have a removed first child; `last_child_id` then panics. -/
theorem C86_dead_first_child : CanBe fun f => f.firstChildId 1 = .ok (some 2) ∧ f.isAlive 1 = true ∧ f.isAlive 2 = false ∧
    ∃ msg, f.lastChildId 1 = .error (.panic msg) :=
  ⟨threeRoots ++ [.insert 0 (.firstChildOf 1), .insert 2 (.previousSiblingOf 0), .insert 0 (.nextSiblingOf 2), .remove 2],
    by simp only [Smooth, threeRoots, List.cons_append, List.nil_append]; decide, by decide, by decide, by decide, _, rfl⟩
/-- A live node may have a removed parent; `prev_sibling_id` then panics. -/
theorem C86_dead_parent : CanBe fun f => f.parentId 0 = .ok (some 1) ∧ f.isAlive 0 = true ∧ f.isAlive 1 = false ∧
    ∃ msg, f.prevSiblingId 0 = .error (.panic msg) :=
  ⟨threeRoots ++ [.insert 0 (.firstChildOf 1), .insert 2 (.previousSiblingOf 0), .insert 0 (.lastChildOf 1), .remove 1],
    by simp only [Smooth, threeRoots, List.cons_append, List.nil_append]; decide, by decide, by decide, by decide, _, rfl⟩

theorem endless {ι σ : Type} {next : σ → R (Option ι × σ)} {P : σ → Prop}
    (h : ∀ st, P st → ∃ o st', next st = .ok (some o, st') ∧ P st') : ∀ n st, P st →
    ∃ items, pull next n st = .ok items ∧ items.length = n ∧ ∀ i ∈ items, i ≠ none
  | 0, _, _ => ⟨[], rfl, rfl, nofun⟩
  | n + 1, st, hp => by
    obtain ⟨o, st', h1, h2⟩ := h st hp
    obtain ⟨l, a, b, c⟩ := endless h n st' h2
    refine ⟨some o :: l, by simp [pull, h1, a], by simp [b], fun i hi => ?_⟩
    rcases List.mem_cons.1 hi with rfl | hi
    · exact nofun
    · exact c i hi

/-- **C86**: after such a history a depth-first traversal may never end. -/
theorem C86_traversal_may_never_end : CanBe fun f => ∃ st, f.depthFirstTraverse 1 = .ok st ∧
    ∀ n, ∃ items, pull f.dftNext n st = .ok items ∧ items.length = n ∧ ∀ i ∈ items, i ≠ none := by
  refine ⟨carousel, by simp only [Smooth, carousel, threeRoots, List.cons_append, List.nil_append]; decide, some (.opn 1, .cls 1), by decide, fun n => ?_⟩
  have e0 : (Op.run 100 Forest.new carousel).dftNext (some (.opn 1, .cls 1)) = .ok (some (.opn 1), some (.opn 2, .cls 1)) := by decide
  have e1 : (Op.run 100 Forest.new carousel).dftNext (some (.opn 2, .cls 1)) = .ok (some (.opn 2), some (.cls 2, .cls 1)) := by decide
  have e2 : (Op.run 100 Forest.new carousel).dftNext (some (.cls 2, .cls 1)) = .ok (some (.cls 2), some (.opn 0, .cls 1)) := by decide
  have e3 : (Op.run 100 Forest.new carousel).dftNext (some (.opn 0, .cls 1)) = .ok (some (.opn 0), some (.cls 0, .cls 1)) := by decide
  have e4 : (Op.run 100 Forest.new carousel).dftNext (some (.cls 0, .cls 1)) = .ok (some (.cls 0), some (.opn 2, .cls 1)) := by decide
  refine endless (P := fun st => st ∈ [some (.opn 1, .cls 1), some (.opn 2, .cls 1), some (.cls 2, .cls 1), some (.opn 0, .cls 1),
    some (.cls 0, .cls 1)]) (fun st hp => ?_) n _ (by simp)
  simp only [List.mem_cons, List.not_mem_nil, or_false] at hp
  rcases hp with rfl | rfl | rfl | rfl | rfl
  · exact ⟨_, _, e0, by simp⟩
  · exact ⟨_, _, e1, by simp⟩
  · exact ⟨_, _, e2, by simp⟩
  · exact ⟨_, _, e3, by simp⟩
  · exact ⟨_, _, e4, by simp⟩

/-! ### Example: a reachable forest that is not consistent -/

example : Reachable 100 (Op.run 100 Forest.new carousel) ∧ (Op.run 100 Forest.new carousel).parentId 1 = .ok none :=
  ⟨⟨_, rfl⟩, by decide⟩

/-! ### The hypotheses can be met

Each example applies the theorem named in its comment to a concrete forest. -/

section
/-- `C86_next_never_self`: in the sample forest, and in a destroyed one. -/
example : Sample.built.nextSiblingId 1 ≠ .ok (some 1) := C86_next_never_self Sample.reachable 1

/-- `C86_next_never_self`: in the sample forest, and in a destroyed one (continued). -/
example := C86_next_never_self Sample.reachable_spoilt 1

/-- `C86_root_has_no_next`: root 6 of the sample forest. -/
example : Sample.built.nextSiblingId 6 = .ok none := C86_root_has_no_next Sample.reachable rfl

end

end Treena
