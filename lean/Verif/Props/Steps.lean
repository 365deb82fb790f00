import Verif.Proof.StepsClone
import Verif.Props.Cost
import Verif.Props.SampleRun
/-!
# C79: what the mutating calls cost

The functions of `Model/Steps.lean` are those of the model with a counter; a step is a call or one round of a loop.

`Steps.Counts mc m s k`: started from `s`, `mc` does what `m` does and adds `k` to the counter (`Spec/Steps.lean`).
`UpPath s.parent P up`: `up` is `P`, its parent, and so on up to the root (what `ancestors_or_self` yields, C24). -/

set_option autoImplicit false

namespace Treena
open Shape Steps

variable {T S : Type} {f : Forest T} {s : Shape} {t : Tree Nat}

/-- **C79**, the counted functions compute the same results and states (also when they panic) as the plain ones, from
every state. -/
theorem C79_same_functions (cap x : Nat) (d : T) (dest : InsertAs) (cl : T → Option T) (fs : Forest T)
    (hook : Forest.Hook S T) (mhook : Forest.MapHook S) :
    Erases (Steps.insert (T := T) x dest) (Forest.insert x dest) ∧
    Erases (Steps.createInsertMomo cap d dest) (Forest.createInsert cap d dest) ∧
    Erases (Steps.onHier (T := T) (Steps.detach x)) (Forest.detach x) ∧
    Erases (Steps.onHier (T := T) (Steps.detachSingle x)) (Forest.detachSingle x) ∧
    Erases (Steps.removeHooked hook x) (Forest.removeHooked hook x) ∧
    Erases (Steps.removeHookedPanicSafe hook x) (Forest.removeHookedPanicSafe hook x) ∧
    Erases (Steps.cloneLocalTreeWithIdMapping cap cl mhook x) (Forest.cloneLocalTreeWithIdMapping cap cl mhook x) ∧
    Erases (Steps.cloneForeignTreeWithIdMapping cap cl mhook fs x) (Forest.cloneForeignTreeWithIdMapping cap cl mhook fs x) :=
  ⟨insert_erases x dest, createInsertMomo_erases cap d dest, (detach_erases x).onHier, (detachSingle_erases x).onHier,
    removeWith_erases _ x, removeWith_erases _ x, cloneLocal_erases cap cl mhook x, cloneForeign_erases cap cl mhook fs x⟩

/-- **C79**, `insert`: the ancestors of the new parent are walked through up to the root; an attempt to make a loop is
noticed when the node is met. -/
theorem C79_insert (hm : Models f s) {x P : Nat} {dest : InsertAs} {up : List Nat}
    (hx : s.alive x = true) (ha : s.alive dest.place.anchor = true)
    (hne : dest ≠ .previousSiblingOf x ∧ dest ≠ .nextSiblingOf x)
    (hP : s.placeParent dest.place = some P) (hup : UpPath s.parent P up) :
    Counts (Steps.insert x dest) (Forest.insert x dest) f (if x ∈ up then up.idxOf x + 2 else up.length + 3) :=
  (hierInsert_counts hm.agrees hm.valid hx ha (place_ne hne) hP hup).onHier

/-- **C79**, every other `insert` (dead node or anchor, the node as its own sibling, sibling of a root) fails in one
step. -/
theorem C79_insert_refused (hm : Models f s) {x : Nat} {dest : InsertAs}
    (ho : s.alive x = false ∨ s.alive dest.place.anchor = false ∨ dest = .previousSiblingOf x ∨ dest = .nextSiblingOf x ∨
      s.placeParent dest.place = none) :
    Counts (Steps.insert x dest) (Forest.insert x dest) f 1 := by
  refine (hierInsert_other hm.agrees hm.valid ?_).onHier
  rintro ⟨h1, h2, h3, P, h4⟩
  rcases ho with h | h | h | h | h
  · rw [h] at h1; cases h1
  · rw [h] at h2; cases h2
  · subst h; exact h3 x (.inl rfl) rfl
  · subst h; exact h3 x (.inr rfl) rfl
  · rw [h] at h4; cases h4

/-- **C79**, `create_insert`: the ancestors of the new parent are walked through up to the root, although a new node
cannot be among them.  A refused `create_insert` takes at most two steps. -/
theorem C79_create_insert (hm : Models f s) (cap : Nat) (d : T) (dest : InsertAs) :
    (∀ P up, s.size < cap → s.alive dest.place.anchor = true → s.placeParent dest.place = some P →
      UpPath s.parent P up →
      Counts (Steps.createInsertMomo cap d dest) (Forest.createInsert cap d dest) f (up.length + 4)) ∧
    (cap ≤ s.size ∨ s.alive dest.place.anchor = false ∨ s.placeParent dest.place = none →
      ∃ k, k ≤ 2 ∧ Counts (Steps.createInsertMomo cap d dest) (Forest.createInsert cap d dest) f k) := by
  refine ⟨fun P up hc ha hP hup => createInsert_counts hm hc d ha hP hup, fun ho => createInsert_refused hm cap d ?_⟩
  rintro ⟨h1, h2, P, h3⟩
  rcases ho with h | h | h
  · omega
  · rw [h] at h2; cases h2
  · rw [h] at h3; cases h3

/-- **C79**, `detach` takes constant time, on whatever state. -/
theorem C79_detach (f : Forest T) (x : Nat) : Counts (Steps.onHier (Steps.detach x)) (Forest.detach x) f 1 :=
  (detach_counts x f.hier).onHier

/-- **C79**, `detach_single`: constant time for a node without children or without parent (or a dead one), else one round
per ancestor and one per child. -/
theorem C79_detach_single (hm : Models f s) (x : Nat) :
    ((s.kids x = [] ∨ s.parent x = none) → Counts (Steps.onHier (Steps.detachSingle x)) (Forest.detachSingle x) f 1) ∧
    (∀ p up, s.kids x ≠ [] → s.parent x = some p → UpPath s.parent p up →
      Counts (Steps.onHier (Steps.detachSingle x)) (Forest.detachSingle x) f
        (up.length + (s.kids x).length + if (s.kids x).length = 1 then 2 else 1)) :=
  ⟨fun h => (detachSingle_simple hm.agrees hm.valid h).onHier,
    fun _ _ hC hp hup => (detachSingle_counts hm.agrees hm.valid hp hC hup).onHier⟩

/-- **C79**, the removals: two rounds per node of the tree, whatever the shape of the tree and the rest of the forest;
fewer when the hook panics.  Removing a removed node takes one step. -/
theorem C79_remove (hm : Models f s) (hook : Forest.Hook S T) (σ : S) :
    (∀ t, Tree.IsTree s.kids t → s.alive t.root = true →
      (∃ k, k ≤ 2 * t.count + 2 ∧ Counts (Steps.removeHooked hook t.root) (Forest.removeHooked hook t.root) (f, σ) k ∧
        ∀ st, Forest.removeHooked hook t.root (f, σ) = .ok () st → k = 2 * t.count + 2) ∧
      (∃ k, k ≤ 2 * t.count + 2 ∧
        Counts (Steps.removeHookedPanicSafe hook t.root) (Forest.removeHookedPanicSafe hook t.root) (f, σ) k ∧
        ∀ st, Forest.removeHookedPanicSafe hook t.root (f, σ) = .ok () st → k = 2 * t.count + 2)) ∧
    (∀ x, s.alive x = false →
      Counts (Steps.removeHooked hook x) (Forest.removeHooked hook x) (f, σ) 1 ∧
      Counts (Steps.removeHookedPanicSafe hook x) (Forest.removeHookedPanicSafe hook x) (f, σ) 1) := by
  refine ⟨fun t ht hx => ⟨?_, ?_⟩, fun x hx => ⟨Steps.removeWith_dead _ hm hx σ, Steps.removeWith_dead _ hm hx σ⟩⟩
  · obtain ⟨k, h1, h2, h3⟩ := removeHooked_counts hook hm ht hx σ
    exact ⟨k, h1, h2, fun st => h3 () st⟩
  · obtain ⟨k, h1, h2, h3⟩ := removeHookedPanicSafe_counts hook hm ht hx σ
    exact ⟨k, h1, h2, fun st => h3 () st⟩

/-- **C79**, copying inside the forest: seven steps per node and one for each ancestor *within the copy* of each node.
A copy that fails (IDs exhausted, panic in `T::clone` or the callback) does not take more. -/
theorem C79_clone_local (hm : Models f s) (cap : Nat) (cl : T → Option T) (hook : Forest.MapHook S)
    (ht : Tree.IsTree s.kids t) (hx : s.alive t.root = true) (σ : S) :
    ∃ k, k ≤ t.depthSum 0 + 7 * t.count - 4 ∧
      Counts (Steps.cloneLocalTreeWithIdMapping cap cl hook t.root) (Forest.cloneLocalTreeWithIdMapping cap cl hook t.root)
        (f, σ) k ∧
      ∀ r st, Forest.cloneLocalTreeWithIdMapping cap cl hook t.root (f, σ) = .ok r st →
        k = t.depthSum 0 + 7 * t.count - 4 :=
  cloneLocal_counts hm ht hx σ

/-- **C79**, copying from another forest costs the same; neither forest's size matters. -/
theorem C79_clone_foreign {fs : Forest T} {ss : Shape} (hm : Models f s) (hms : Models fs ss) (cap : Nat)
    (cl : T → Option T) (hook : Forest.MapHook S) (ht : Tree.IsTree ss.kids t) (hx : ss.alive t.root = true) (σ : S) :
    ∃ k, k ≤ t.depthSum 0 + 7 * t.count - 4 ∧
      Counts (Steps.cloneForeignTreeWithIdMapping cap cl hook fs t.root)
        (Forest.cloneForeignTreeWithIdMapping cap cl hook fs t.root) (f, σ) k ∧
      ∀ r st, Forest.cloneForeignTreeWithIdMapping cap cl hook fs t.root (f, σ) = .ok r st →
        k = t.depthSum 0 + 7 * t.count - 4 :=
  cloneForeign_counts hm hms ht hx σ

namespace Tree

mutual
theorem depthSum_le {α : Type} (q : Nat) : ∀ t : Tree α, 2 * t.depthSum q + t.count ≤ 2 * q * t.count + t.count * t.count
  | .node a ts => by
    have := depthSumL_le (q + 1) ts
    simp only [depthSum, count]
    nlinarith
theorem depthSumL_le {α : Type} (q : Nat) : ∀ ts : List (Tree α),
    2 * depthSumL q ts + countL ts ≤ 2 * q * countL ts + countL ts * countL ts
  | [] => by simp [depthSumL, countL]
  | t :: ts => by
    have h1 := depthSum_le q t
    have h2 := depthSumL_le q ts
    simp only [depthSumL, countL]
    nlinarith [Nat.zero_le (t.count * countL ts)]
end

theorem line_depthSum (n : Nat) : ∀ b q, 2 * ((line n).number b).depthSum q = (n + 1) * (2 * q + n) := by
  induction n with
  | zero => intro b q; simp [line, number, numberL, depthSum, depthSumL]
  | succ n ih =>
    intro b q
    have := ih (b + 1) (q + 1)
    simp only [line, number, numberL, depthSum, depthSumL, Nat.add_zero]
    have e : 2 * (q + depthSum (q + 1) ((line n).number (b + 1))) = 2 * q + 2 * depthSum (q + 1) ((line n).number (b + 1)) := by ring
    rw [e, this]; ring

end Tree

/-- **C79**, copying is at most quadratic in the number of copied nodes. -/
theorem C79_clone_quadratic (t : Tree Nat) : t.depthSum 0 + 7 * t.count - 4 ≤ t.count * t.count + 7 * t.count := by
  have := t.depthSum_le 0
  omega

/-- **C79**, and the quadratic time is attained: for every `n` the builder makes a tree of `n + 1` nodes whose copy takes
`n(n+1)/2 + 7n + 3` steps. -/
theorem C79_clone_worst_case (n cap : Nat) (hcap : 2 * (n + 1) ≤ cap) :
    ∃ f g k, nestBuild cap () (lineCalls n) Forest.new = .ok 0 f ∧
      Steps.cloneLocalTreeWithIdMapping (S := Unit) cap some (fun σ _ _ => .ok σ) 0 ((f, ()), 0) = .ok (n + 1) ((g, ()), k) ∧
      2 * k = n * (n + 1) + 14 * n + 6 := by
  have hc0 := congrArg Tree.count (lineCalls_trees n)
  have hc1 : (Tree.line n).count = n + 1 := by
    clear hc0
    induction n with
    | zero => rfl
    | succ n ih => simp [Tree.line, Tree.count, Tree.countL, ih (by omega)]
  obtain ⟨f, s, h1, _, _, h2⟩ := C31_nest_builder (Sample.new_models (T := Unit)) cap () (lineCalls n) (lineCalls_calm n)
    (by rw [hc0, hc1]; simp [Shape.empty]; omega)
  rw [lineCalls_trees] at h2
  have ht := h2.tree
  have hr := Tree.line_root (Shape.empty).size n
  have hx : s.alive ((Tree.line n).number Shape.empty.size).root = true := by
    rw [hr]; refine h2.alive _ (Nat.le_refl _) ?_
    rw [h2.size, hc1]; omega
  have hm := h2.grown.models
  obtain ⟨k, h3, h4, h5⟩ := C79_clone_local (S := Unit) hm cap some (fun σ _ _ => .ok σ) ht hx ()
  have hsz : s.size = n + 1 := by rw [h2.size, hc1]; simp [Shape.empty]
  obtain ⟨g, σ', s', ho⟩ := cloneLocal_spec (S := Unit) (cap := cap) (cl := some) (hook := fun σ _ _ => .ok σ) hm ht hx ()
  have hcnt := Tree.line_count Shape.empty.size n
  have hfeed : ∀ l : List (Nat × Nat), feed (pairHook (S := Unit) fun σ _ _ => .ok σ) () l = ((), none) := by
    intro l
    induction l with
    | nil => rfl
    | cons a l ih => simp only [feed, pairHook]; rw [ih]; rfl
  rcases ho with ⟨_, _, _, _, hrun⟩ | ⟨e, m, hrun, _, _, _, _, hfail⟩
  · refine ⟨f, g, k, h1, ?_, ?_⟩
    · have := h4 0
      rw [hrun, hr] at this
      rw [show (Shape.empty).size = 0 from rfl] at this
      rw [this, Nat.zero_add, hsz]; rfl
    · rw [h5 _ _ hrun, hcnt]
      have := Tree.line_depthSum n Shape.empty.size 0
      have e : (n + 1) * (2 * 0 + n) = n * (n + 1) := by ring
      rw [e] at this
      omega
  · exfalso
    cases hfail with
    | hook k h _ _ _ => rw [hfeed] at h; cases h
    | full h _ _ =>
      rw [List.length_zip, Tree.length_preorder, List.length_range', hcnt, hsz] at h
      omega
    | clone k _ _ _ h =>
      obtain ⟨q, hq, hf⟩ := h
      have hmem : q.1 ∈ ((Tree.line n).number Shape.empty.size).preorder :=
        (List.of_mem_zip (List.mem_of_getElem? hq)).1
      obtain ⟨d, hd⟩ := data_some hm (Tree.mem_alive hm.valid ht hx hmem)
      simp [clones, hd] at hf

/-- **C79**, copying a tree is *not* `O(n)`: for every constant `c` there is a tree of some number `n` of nodes, made by
the builder, whose copy takes more than `c·n` steps. -/
theorem C79_clone_not_linear (c : Nat) : ∃ n, ∀ cap, 2 * n ≤ cap → ∃ f g k,
    nestBuild cap () (lineCalls (n - 1)) Forest.new = .ok 0 f ∧
    Steps.cloneLocalTreeWithIdMapping (S := Unit) cap some (fun σ _ _ => .ok σ) 0 ((f, ()), 0) = .ok n ((g, ()), k) ∧
    c * n < k := by
  refine ⟨2 * c + 1, fun cap h => ?_⟩
  obtain ⟨f, g, k, h1, h2, h3⟩ := C79_clone_worst_case (2 * c) cap h
  refine ⟨f, g, k, h1, h2, ?_⟩
  have : 2 * c * (2 * c + 1) = 2 * (c * (2 * c + 1)) := by ring
  omega

/-! ### The sample -/

/-- Node 6 goes below node 2 (ancestors 2, 0): 5 steps; node 0 below node 5 (ancestors 5, 2, 0) is refused after 4. -/
example : Counts (Steps.insert 6 (.firstChildOf 2)) (Forest.insert 6 (.firstChildOf 2)) Sample.built 5 ∧
    Counts (Steps.insert 0 (.lastChildOf 5)) (Forest.insert 0 (.lastChildOf 5)) Sample.built 4 := by
  constructor
  · exact C79_insert Sample.models (P := 2) (up := [2, 0]) rfl rfl ⟨by simp, by simp⟩ rfl (.step (p := 0) rfl (.root rfl))
  · exact C79_insert Sample.models (P := 5) (up := [5, 2, 0]) rfl rfl ⟨by simp, by simp⟩ rfl
      (.step (p := 2) rfl (.step (p := 0) rfl (.root rfl)))

/-- A new node below node 4: 7 steps. -/
example : Counts (Steps.createInsertMomo 100 1 (.lastChildOf 4)) (Forest.createInsert 100 1 (.lastChildOf 4)) Sample.built 7 :=
  (C79_create_insert Sample.models 100 1 (.lastChildOf 4)).1 4 [4, 2, 0] (by decide) rfl rfl
    (.step (p := 2) rfl (.step (p := 0) rfl (.root rfl)))

/-- `detach_single` of node 2, which has one ancestor and two children: 4 steps. -/
example : Counts (Steps.onHier (Steps.detachSingle 2)) (Forest.detachSingle 2) Sample.built 4 :=
  (C79_detach_single Sample.models 2).2 0 [0] (by decide) rfl (.root rfl)

/-- The tree of node 0: removal 14 steps, copy `(1 + 1 + 2 + 2 + 1) + 42 - 4`. -/
example : Sample.tree.count = 6 ∧ Sample.tree.depthSum 0 = 7 ∧ Tree.IsTree Sample.shape.kids Sample.tree ∧
    Sample.shape.alive Sample.tree.root = true := ⟨rfl, rfl, Sample.isTree, rfl⟩

/-! ### The hypotheses can be met

Each example applies the theorem named in its comment to a concrete forest. -/

section
/-- `C79_clone_foreign`: the tree of node 0 into an empty forest. -/
example := C79_clone_foreign (t := Sample.tree) (T := Nat) Sample.new_models Sample.models 100 some (fun (s : Unit) _ _ => .ok s) Sample.isTree rfl ()

/-- `C79_clone_local`: the tree of node 0. -/
example := C79_clone_local (t := Sample.tree) Sample.models 100 some (fun (s : Unit) _ _ => .ok s) Sample.isTree rfl ()

/-- `C79_clone_worst_case`: a line of eleven nodes. -/
example := C79_clone_worst_case 10 22 (by decide)

/-- `C79_insert_refused`: a sibling of root 6. -/
example := C79_insert_refused Sample.models (x := 2) (dest := .nextSiblingOf 6) (.inr (.inr (.inr (.inr rfl))))

/-- `C79_remove`: a hook that counts. -/
example := C79_remove Sample.models (fun (k : Nat) _ => .ok (k + 1)) 0

end

end Treena
