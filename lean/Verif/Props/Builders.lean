import Verif.Proof.Builders
import Verif.Proof.Move
import Verif.Props.Sample
import Verif.Props.SampleRun
/-!
# Properties of the builders (C31, C32)

`Planted f s t g s'`: `g` is `f` plus one fresh tree with the data of `t`.
-/
set_option autoImplicit false

namespace Treena
open Shape
variable {T : Type} {f : Forest T} {s : Shape}

/-- **C31**.  `NestTreeBuilder::new(d)` followed by any nesting of `add_child` / `create_tree` calls, no closure
panicking and enough IDs being left, returns from `root()` a fresh ID; the forest is the old one plus one tree
with that root, whose data are exactly as described by the nesting (`treesL`), in call order. -/
theorem C31_nest_builder (hm : Models f s) (cap : Nat) (d : T) (calls : List (NestCall T))
    (hcalm : NestCall.calmL calls = true)
    (hcap : s.size + (Tree.node d (NestCall.treesL calls)).count ≤ cap) :
    ∃ g s', nestBuild cap d calls f = .ok s.size g ∧ f.isAlive s.size = false ∧ Describes g s' ∧
      Planted f s (.node d (NestCall.treesL calls)) g s' := by
  rw [Tree.count] at hcap
  rcases nestBuild_spec hm cap d calls with ⟨h, _⟩ | ⟨_, g, s', h1, h2⟩
  · omega
  · rw [planL_trees calls _ hcalm (by omega)] at h1 h2
    exact ⟨g, s', h2, by rw [hm.isAlive]; exact hm.valid.dead_size, h1.grown.models.describes, h1⟩

/-- **C31**, every outcome: whatever closures panic and however few IDs are left, the forest is consistent, all old
nodes are unchanged, and the new tree consists of what was built before the panic (`planL`, which is given the
number of nodes that can still be created). -/
theorem C31_nest_builder_any (hm : Models f s) (cap : Nat) (d : T) (calls : List (NestCall T)) :
    (cap ≤ s.size → nestBuild cap d calls f = .fail overflow f) ∧
    (s.size < cap → ∃ g s', Planted f s (.node d (NestCall.planL (cap - s.size - 1) calls).1) g s' ∧
      Describes g s' ∧
      nestBuild cap d calls f = match (NestCall.planL (cap - s.size - 1) calls).2 with
        | .ok _ => .ok s.size g
        | .error e => .fail e g) := by
  rcases nestBuild_spec hm cap d calls with ⟨h, h1⟩ | ⟨h, g, s', h1, h2⟩
  · exact ⟨fun _ => h1, fun h' => by omega⟩
  · exact ⟨fun h' => by omega, fun _ => ⟨g, s', h1, h1.grown.models.describes, h2⟩⟩

/-- The nesting of the documentation of `NestTreeBuilder`, added to the sample: the root is 8, its children are
9, 10 and 13, those of 10 are 11 and 12. -/
example : ∃ g s', nestBuild 100 1 [.addChild 2, .createTree 3 [.addChild 4, .addChild 5], .addChild 6] Sample.built =
      .ok 8 g ∧ Describes g s' ∧ s'.kids 8 = [9, 10, 13] ∧ s'.kids 10 = [11, 12] ∧ g.getData 12 = some 5 ∧
      g.getData 2 = some 12 := by
  obtain ⟨g, s', h1, _, h2, h3⟩ := C31_nest_builder Sample.models 100 1
    [.addChild 2, .createTree 3 [.addChild 4, .addChild 5], .addChild 6] (by decide) (by decide)
  refine ⟨g, s', h1, h2, ?_, ?_, ?_, ?_⟩
  · exact h3.tree.1
  · exact h3.tree.2.2.1.1
  · have := h3.data; simp only [Forest.getData, this]; decide
  · rw [h3.grown.data 2 (by decide)]; decide

/-- With a panicking closure the part built so far remains. -/
example : ∃ g s', nestBuild 100 1 [.createTree 3 [.addChild 4, .boom, .addChild 5], .addChild 6] Sample.built =
      .fail NestCall.userPanic g ∧ Planted Sample.built Sample.shape (.node 1 [.node 3 [.node 4 []]]) g s' := by
  obtain ⟨g, s', h1, _, h2⟩ := (C31_nest_builder_any Sample.models 100 1
    [.createTree 3 [.addChild 4, .boom, .addChild 5], .addChild 6]).2 (by decide)
  exact ⟨g, s', h2, h1⟩

/-! ### `ChainTreeBuilder` -/

/-- **C32**, one call, whatever happened before (in particular through `forest_mut`), as long as the forest is
consistent and the current node is alive: `child` appends a new last child to the current node, `sibling` inserts a
new node right after the current node if that has a parent; both make it the current node.  `try_parent` and
`parent` move to the parent; at a root `try_parent` returns `None` and `parent` panics, nothing being changed. -/
theorem C32_one_call {b : Chain T} (hm : Models b.forest s) (ha : s.alive b.current = true) (cap : Nat) (d : T) :
    (s.size < cap → ∃ g s', Chain.child cap d b = .ok () ⟨g, b.root, s.size⟩ ∧ Describes g s' ∧ Models g s' ∧
      s'.size = s.size + 1 ∧
      (∀ x, s'.kids x = if x = b.current then s.kids b.current ++ [s.size] else s.kids x) ∧
      (∀ x, s'.parent x = if x = s.size then some b.current else s.parent x) ∧
      (∀ x, s'.alive x = if x = s.size then true else s.alive x) ∧
      (∀ x, g.getData x = if x = s.size then some d else b.forest.getData x)) ∧
    (s.size < cap → ∀ p, s.parent b.current = some p →
      ∃ g s', Chain.sibling cap d b = .ok () ⟨g, b.root, s.size⟩ ∧ Describes g s' ∧ Models g s' ∧
      s'.size = s.size + 1 ∧
      (∀ x, s'.kids x = if x = p then
        before (s.kids p) b.current ++ b.current :: s.size :: after (s.kids p) b.current else s.kids x) ∧
      (∀ x, s'.parent x = if x = s.size then some p else s.parent x) ∧
      (∀ x, s'.alive x = if x = s.size then true else s.alive x) ∧
      (∀ x, g.getData x = if x = s.size then some d else b.forest.getData x)) ∧
    (∀ p, s.parent b.current = some p →
      Chain.tryParent b = .ok true ⟨b.forest, b.root, p⟩ ∧ Chain.parent b = .ok () ⟨b.forest, b.root, p⟩) ∧
    (s.parent b.current = none → Chain.tryParent b = .ok false b ∧
      Chain.parent b = .fail (.panic "[precondition] the current node should not be the root") b) := by
  have hv := hm.valid
  have hno : ∀ q, (s.kids q).erase s.size = s.kids q := fun q => List.erase_of_not_mem (not_mem_fresh hv q)
  have hpc := Chain.parentOfCurrent_eq hm ha
  refine ⟨fun hcap => ?_, fun hcap p hp => ?_, fun p hp => ?_, fun hp => ?_⟩
  · obtain ⟨g, h1, h2, h3⟩ := createInsert_models hm hcap d (dest := .lastChildOf b.current) (P := b.current) ha rfl
    refine ⟨g, _, Chain.child_ok h1, h2.describes, h2, ?_, ?_, ?_, ?_, h3⟩
    · rw [move_size]; rfl
    · intro x
      simp [Shape.move, Shape.placeParent, InsertAs.place, Shape.attach, Shape.detach, upd, Place.put, Shape.addRoot, hno]
    · intro x
      simp only [Shape.move, Shape.placeParent, InsertAs.place, Shape.attach, Shape.detach, upd, Shape.addRoot]
      split <;> rfl
    · intro x; rw [move_alive]; rfl
  · obtain ⟨g, h1, h2, h3⟩ := createInsert_models hm hcap d (dest := .nextSiblingOf b.current) (P := p) ha hp
    have hpp : s.addRoot.placeParent (.after b.current) = some p := hp
    have hmv : s.addRoot.move s.size (InsertAs.nextSiblingOf b.current).place = (s.addRoot.detach s.size).attach s.size p
        ((Place.after b.current).put s.size ((s.addRoot.detach s.size).kids p)) := by
      unfold Shape.move InsertAs.place; rw [hpp]
    refine ⟨g, _, Chain.sibling_ok h1, h2.describes, h2, ?_, ?_, ?_, ?_, h3⟩
    · rw [move_size]; rfl
    · intro x
      rw [hmv]
      simp only [Shape.attach, Shape.detach, upd, Place.put, Shape.addRoot, hno]
    · intro x
      rw [hmv]
      simp only [Shape.attach, Shape.detach, upd, Shape.addRoot]
      split <;> rfl
    · intro x; rw [move_alive]; rfl
  · rw [hp] at hpc
    exact ⟨Chain.tryParent_eq hpc, Chain.parent_eq hpc⟩
  · rw [hp] at hpc
    exact ⟨Chain.tryParent_eq hpc, Chain.parent_eq hpc⟩

/-- **C32**, the calls that panic: without free IDs `child` and `sibling` change nothing; `sibling` at a root leaves
the new node behind as an isolated root (the forest is consistent); with a dead current node (removed through
`forest_mut`) all calls panic, `parent` and `try_parent` changing nothing.  The cursor stays where it was. -/
theorem C32_one_call_panics {b : Chain T} (hm : Models b.forest s) (hlt : b.current < s.size) (cap : Nat) (d : T) :
    (cap ≤ s.size → Chain.child cap d b = .fail overflow b ∧ Chain.sibling cap d b = .fail overflow b) ∧
    (s.size < cap → s.parent b.current = none → ∃ msg g, Chain.sibling cap d b = .fail (.panic msg) ⟨g, b.root, b.current⟩ ∧
      Models g s.addRoot ∧ Describes g s.addRoot) ∧
    (s.size < cap → s.alive b.current = false →
      ∃ msg g, Chain.child cap d b = .fail (.panic msg) ⟨g, b.root, b.current⟩ ∧ Models g s.addRoot) ∧
    (s.alive b.current = false → (∃ msg, Chain.tryParent b = .fail (.panic msg) b) ∧
      ∃ msg, Chain.parent b = .fail (.panic msg) b) := by
  refine ⟨fun hcap => ⟨?_, ?_⟩, fun hcap hp => ?_, fun hcap ha => ?_, fun ha => ?_⟩
  · exact Chain.child_fail (createInsert_full' hm hcap d (dest := .lastChildOf b.current) hlt)
  · exact Chain.sibling_fail (createInsert_full' hm hcap d (dest := .nextSiblingOf b.current) hlt)
  · obtain ⟨msg, g, h1, h2, _⟩ := createInsert_orphan hm hcap d (dest := .nextSiblingOf b.current) hlt (.inr hp)
    exact ⟨msg, g, Chain.sibling_fail h1, h2, h2.describes⟩
  · obtain ⟨msg, g, h1, h2, _⟩ := createInsert_orphan hm hcap d (dest := .lastChildOf b.current) hlt (.inl ha)
    exact ⟨msg, g, Chain.child_fail h1, h2⟩
  · have := Chain.parentOfCurrent_dead hm ha
    exact ⟨⟨_, Chain.tryParent_err this⟩, ⟨_, Chain.parent_err this⟩⟩

/-- **C32**, whole chains: `ChainTreeBuilder::new(d)` followed by any sequence of calls behaves as the cursor of the
specification.  If no call of the sequence panics there (`steps` is defined), none does here, the current node is
that of the cursor, its ancestors are those of the cursor, and the forest is the old one plus exactly the
described tree.  Otherwise the program panics, and the forest is consistent with all old nodes unchanged. -/
theorem C32_chain_builder (hm : Models f s) (cap : Nat) (hcap : s.size < cap) (d : T) (calls : List (ChainCall T)) :
    ∃ b : Chain T, Chain.new cap d f = .ok b b.forest ∧ b.rootId = s.size ∧ f.isAlive s.size = false ∧
      match (Cursor.mk ⟨s.size, d, []⟩ []).steps cap calls with
      | some c => ∃ b' s', ChainCall.execL cap calls b = .ok () b' ∧ b'.rootId = s.size ∧
          b'.currentId = c.top.id ∧ UpPath s'.parent b'.currentId c.ids ∧ Describes b'.forest s' ∧
          Planted f s c.close b'.forest s'
      | none => ∃ b' s' e, ChainCall.execL cap calls b = .fail (.panic e) b' ∧ Grown f s b'.forest s' := by
  obtain ⟨f1, h1, hm1, hd1⟩ := createRoot_models hm hcap d
  have hg1 := (Grown.refl hm).addRoot hm1 hd1
  have hk : s.addRoot.kids s.size = [] := hm.valid.fresh _ (Nat.le_refl _)
  have hok : CursorOk f s (Cursor.mk ⟨s.size, d, []⟩ []) f1 s.addRoot := by
    refine ⟨hg1.1, rfl, ⟨by simp [hk, Tree.numberL], trivial⟩, ⟨rfl, ?_⟩, ?_, ?_⟩
    · exact hm.valid.dead_parent hm.valid.dead_size
    · intro x hx hx2
      have hx2 : x < s.size + 1 := hx2
      have : x = s.size := by omega
      subst this; exact s.addRoot_alive_self
    · rw [hg1.2]; rfl
  refine ⟨⟨f1, s.size, s.size⟩, ?_, rfl, by rw [hm.isAlive]; exact hm.valid.dead_size, ?_⟩
  · unfold Chain.new; rw [h1]
  · obtain ⟨b', s', h0, h2⟩ := chain_execL (cap := cap) calls (b := ⟨f1, s.size, s.size⟩) hok rfl
    cases hst : (Cursor.mk ⟨s.size, d, []⟩ []).steps cap calls with
    | none =>
      rw [hst] at h2
      obtain ⟨⟨e, h2⟩, h3⟩ := h2
      exact ⟨b', s', e, h2, h3⟩
    | some c =>
      rw [hst] at h2
      obtain ⟨h2, h3, h4⟩ := h2
      refine ⟨b', s', h2, h0, h3, ?_, h4.grown.models.describes, closeFrom_ok c.rest c.top h4⟩
      show UpPath s'.parent b'.current _
      rw [h3]; exact restOk_upPath _ _ h4.rest

/-- **C32**: in every state, also an inconsistent one, each call of the builder does to the forest exactly what the
corresponding call of `Forest` does (so histories that mix builder calls with `forest_mut` are histories of
plain calls). -/
theorem C32_calls_are_forest_calls (b : Chain T) (cap : Nat) (d : T) :
    (Chain.child cap d b).state.forest = (Forest.createInsert cap d (.lastChildOf b.current) b.forest).state ∧
    (Chain.sibling cap d b).state.forest = (Forest.createInsert cap d (.nextSiblingOf b.current) b.forest).state ∧
    (Chain.tryParent b).state.forest = b.forest ∧ (Chain.parent b).state.forest = b.forest := by
  refine ⟨?_, ?_, ?_, ?_⟩
  · cases h : Forest.createInsert cap d (.lastChildOf b.current) b.forest with
    | ok n g => rw [Chain.child_ok h]; rfl
    | fail e g => rw [Chain.child_fail h]; rfl
  · cases h : Forest.createInsert cap d (.nextSiblingOf b.current) b.forest with
    | ok n g => rw [Chain.sibling_ok h]; rfl
    | fail e g => rw [Chain.sibling_fail h]; rfl
  · cases h : Chain.parentOfCurrent b with
    | error e => rw [Chain.tryParent_err h]; rfl
    | ok o => rw [Chain.tryParent_eq h]; cases o <;> rfl
  · cases h : Chain.parentOfCurrent b with
    | error e => rw [Chain.parent_err h]; rfl
    | ok o => rw [Chain.parent_eq h]; cases o <;> rfl

/-- The chain of the documentation describes the tree drawn there: root with the subtrees 1 (with 11 (with 111) and
12), 2, 3 (with 31), 4. -/
def docChain : List (ChainCall Nat) :=
  [.child 1, .child 11, .child 111, .parent, .sibling 12, .parent, .sibling 2, .sibling 3, .child 31, .parent,
   .sibling 4]

example : ∃ b b' s', Chain.new 100 0 Sample.built = .ok b b.forest ∧ ChainCall.execL 100 docChain b = .ok () b' ∧
    b'.rootId = 8 ∧ b'.currentId = 16 ∧
    Planted Sample.built Sample.shape (.node 0 [.node 1 [.node 11 [.node 111 []], .node 12 []], .node 2 [],
      .node 3 [.node 31 []], .node 4 []]) b'.forest s' := by
  obtain ⟨b, h1, _, _, h2⟩ := C32_chain_builder Sample.models 100 (by decide) 0 docChain
  obtain ⟨b', s', k1, k2, k3, _, _, k4⟩ := h2
  exact ⟨b, b', s', h1, k1, k2, k3, k4⟩

/-- Going above the root panics. -/
example : (Cursor.mk ⟨8, 0, []⟩ []).steps 100 [.child 1, .parent, .parent] = none := rfl

/-! ### The hypotheses can be met

Each example applies the theorem named in its comment to a concrete forest. -/

section
/-- `C32_one_call`: a builder standing on node 2 of the sample forest. -/
example := C32_one_call (b := ⟨Sample.built, 0, 2⟩) Sample.models rfl 100 42

/-- `C32_one_call_panics`: on the root 0, and on the removed node 7. -/
example := C32_one_call_panics (b := ⟨Sample.built, 0, 0⟩) Sample.models (by decide) 100 42

/-- `C32_one_call_panics`: on the root 0, and on the removed node 7 (continued). -/
example := C32_one_call_panics (b := ⟨Sample.built, 0, 7⟩) Sample.models (by decide) 100 42

end

end Treena
