import Verif.Proof.Cost
import Verif.Props.Builders
import Verif.Props.Traverse
import Mathlib.Tactic.Ring
import Verif.Props.SampleRun
/-!
# Documented complexity of the breadth-first iterators (C64)

Steps are counted by the instrumented functions of `Model/Cost.lean`.
-/
set_option autoImplicit false

namespace Treena
open Shape
variable {T : Type} {f : Forest T} {s : Shape}

/-- **C64**, what is counted: for every forest (consistent or not), iterator state and number of calls, the counted
iterators give the same items as the iterators of the model (or fail in the same way). -/
theorem C64_same_iterators (um : Nat) (f : Forest T) (n : Nat) :
    (∀ st, (pullC (Forest.bftNextC um f) n st).value = pull (Forest.bftNext um f) n st) ∧
    (∀ st, (pullC f.abftNextC n st).value = pull f.abftNext n st) := by
  constructor
  · intro st
    rw [pullC_value]
    congr 1; funext st
    rw [Forest.bftNextC, emitC_value, bftNextC_value]; rfl
  · intro st
    rw [pullC_value]
    congr 1; funext st
    rw [Forest.abftNextC, emitC_value, ABft.nextC, nextLoopC_value]; rfl

/-- **C64**, `breadth_first_traverse` is `O(n²)`: `k` calls of `next` on an iterator over a subtree of `n` nodes take
at most `k + 2(n+1)²` steps together.  The steps of a complete iteration are given exactly by `bftSteps`, calls after
the end being one step each. -/
theorem C64_bft_quadratic (hm : Models f s) {t : Tree Nat} (ht : Tree.IsTree s.kids t) (hx : s.alive t.root = true)
    (um : Nat) : ∃ st, Forest.breadthFirstTraverse um f t.root = .ok st ∧
      ∀ k, ∃ steps, pullC (Forest.bftNextC um f) k st = .ok (pulls t.bfs k, steps) ∧
        steps ≤ k + 2 * (t.count + 1) ^ 2 ∧
        (t.count ≤ um → t.count < k → steps = k + t.bftSteps) := by
  obtain ⟨st, h1, h2⟩ := bftPot_start um hm ht hx
  refine ⟨st, h1, fun k => ?_⟩
  obtain ⟨c, p', h3, h4, h5⟩ := pullC_inv (bftNextC_inv um hm ht hx) k _ _ _ h2
  have hlen : t.bfs.length = t.count := by
    rw [← Tree.length_preorder, ← (Tree.bfs_perm t).length_eq, List.length_map]
  refine ⟨k + c, h3, ?_, ?_⟩
  · have h6 := t.potential_le um
    have h7 := Nat.mul_le_mul_right (2 * t.count + 2) (Nat.add_le_add_right t.height_le_count 1)
    have h8 : (t.count + 1) * (2 * t.count + 2) = 2 * (t.count + 1) ^ 2 := by ring
    omega
  · intro hu hk
    have := t.potential_eq (Nat.le_trans t.height_le_count hu)
    have := h5 (by omega)
    omega

/-- **C64**, `allocating_breadth_first_traverse` is `O(n)`: `k` calls of `next` on an iterator over a subtree of `n`
nodes take at most `k + 6n` steps together (those of a complete iteration are given exactly by `abftSteps`, calls after
the end being one step each), and the queue never has more than `n + 1` elements. -/
theorem C64_abft_linear (hm : Models f s) {t : Tree Nat} (ht : Tree.IsTree s.kids t) (hx : s.alive t.root = true) :
    ∃ st, f.allocatingBreadthFirstTraverse t.root = .ok st ∧
      ∀ k, (∃ steps, pullC f.abftNextC k st = .ok (pulls t.bfs k, steps) ∧
        steps ≤ k + 6 * t.count ∧ (t.count < k → steps = k + t.abftSteps)) ∧
        ∃ st', advance f.abftNext k st = .ok st' ∧ st'.events.length ≤ t.count + 1 := by
  obtain ⟨st, h1, h2⟩ := abftPot_start hm ht hx
  have hlen : t.bfs.length = t.count := by
    rw [← Tree.length_preorder, ← (Tree.bfs_perm t).length_eq, List.length_map]
  refine ⟨st, h1, fun k => ⟨?_, ?_⟩⟩
  · obtain ⟨c, p', h3, h4, h5⟩ := pullC_inv (abftNextC_inv hm) k _ _ _ h2
    refine ⟨k + c, h3, ?_, ?_⟩
    · have := t.height_le_count
      unfold Tree.abftSteps at h4
      omega
    · intro hk
      have := h5 (by omega)
      omega
  · obtain ⟨st0, h3, h4⟩ := abft_start hm ht hx
    rw [h1] at h3; cases h3
    obtain ⟨st', h5, h6⟩ := advance_inv (abftNext_inv hm) k _ _ h4
    refine ⟨st', h5, ?_⟩
    have hd : (t.bfs.drop k).length ≤ t.count := by rw [List.length_drop]; omega
    rcases h6 with ⟨h7, _⟩ | ⟨cur, nxt, _, h7, h8⟩
    · rw [h7]; simp
    · have := Tree.length_bfsL_ge (st'.depth + 1) (nxt ++ cur.flatMap Tree.subs)
      have h9 := congrArg List.length h8
      rw [h7]
      simp at this h9 ⊢
      rw [hlen] at h9
      omega

/-! ### The quadratic bound is attained -/

/-- Calls of `NestTreeBuilder` making a line of `n` nodes below the root. -/
def lineCalls : Nat → List (NestCall Unit)
  | 0 => []
  | n + 1 => [.createTree () (lineCalls n)]

theorem lineCalls_trees : ∀ n, Tree.node () (NestCall.treesL (lineCalls n)) = Tree.line n
  | 0 => rfl
  | n + 1 => by
    have := lineCalls_trees n
    simp [lineCalls, NestCall.treesL, NestCall.trees, Tree.line, this]

theorem lineCalls_calm : ∀ n, NestCall.calmL (lineCalls n) = true
  | 0 => rfl
  | n + 1 => by simp [lineCalls, NestCall.calmL, NestCall.calm, lineCalls_calm n]

namespace Tree

theorem line_height (b : Nat) : ∀ n, ((line n).number b).height = n + 1 := by
  intro n
  induction n generalizing b with
  | zero => rfl
  | succ n ih => simp [line, number, numberL, height, heightL, ih]

theorem line_count (b : Nat) : ∀ n, ((line n).number b).count = n + 1 := by
  intro n
  induction n generalizing b with
  | zero => rfl
  | succ n ih => simp [line, number, numberL, count, countL, ih]

theorem line_root (b n : Nat) : ((line n).number b).root = b := by cases n <;> rfl

theorem line_upTo (n : Nat) : ∀ (b d : Nat), ((line n).number b).upTo d = min (d + 1) (n + 1) := by
  induction n with
  | zero => intro b d; cases d <;> simp [line, number, numberL, upTo, upToL]
  | succ n ih =>
    intro b d
    cases d with
    | zero => simp [line, number, upTo]
    | succ d => simp [line, number, numberL, upTo, upToL, ih]

theorem line_steps (b n : Nat) : ((line n).number b).bftSteps = (n + 1) ^ 2 + 5 * (n + 1) + 1 := by
  unfold bftSteps
  rw [line_height]
  simp only [line_upTo]
  have key : ∀ k, k ≤ n + 1 → ((List.range k).map fun d => 2 * min (d + 1) (n + 1) + 1).sum = k * k + 2 * k := by
    intro k
    induction k with
    | zero => simp
    | succ k ih =>
      intro hk
      rw [List.range_succ, List.map_append, List.sum_append, ih (by omega)]
      simp only [List.map_cons, List.map_nil, List.sum_cons, List.sum_nil]
      rw [Nat.min_eq_left (by omega)]
      ring
  rw [List.range_succ, List.map_append, List.sum_append, key (n + 1) (Nat.le_refl _)]
  simp only [List.map_cons, List.map_nil, List.sum_cons, List.sum_nil]
  rw [Nat.min_eq_right (by omega)]
  ring

end Tree

/-- **C64**, the bound of `breadth_first_traverse` is sharp up to a constant: for every `n` the builder makes a tree of
`n + 1` nodes whose complete iteration takes more than `(n+1)²` steps. -/
theorem C64_bft_worst_case (n cap um : Nat) (hcap : n + 1 ≤ cap) (hum : n + 1 ≤ um) :
    ∃ f st items, nestBuild cap () (lineCalls n) Forest.new = .ok 0 f ∧
      Forest.breadthFirstTraverse um f 0 = .ok st ∧
      pullC (Forest.bftNextC um f) (n + 2) st = .ok (items, (n + 2) + ((n + 1) ^ 2 + 5 * (n + 1) + 1)) ∧
      (∀ i, i < n + 1 → ∃ e, items[i]? = some (some e)) ∧ items[n + 1]? = some none := by
  have hc0 := congrArg Tree.count (lineCalls_trees n)
  have hc1 : (Tree.line n).count = n + 1 := by
    clear hc0
    induction n with
    | zero => rfl
    | succ n ih => simp [Tree.line, Tree.count, Tree.countL, ih (by omega) (by omega)]
  obtain ⟨f, s, h1, _, _, h2⟩ := C31_nest_builder (Sample.new_models (T := Unit)) cap () (lineCalls n) (lineCalls_calm n)
    (by rw [hc0, hc1]; simpa [Shape.empty] using hcap)
  rw [lineCalls_trees] at h2
  have ht := h2.tree
  have hr := Tree.line_root (Shape.empty).size n
  have hx : s.alive ((Tree.line n).number Shape.empty.size).root = true := by
    rw [hr]; refine h2.alive _ (Nat.le_refl _) ?_
    rw [h2.size, hc1]; omega
  obtain ⟨st, h3, h4⟩ := C64_bft_quadratic h2.grown.models ht hx um
  obtain ⟨steps, h5, _, h6⟩ := h4 (n + 2)
  rw [Tree.line_count, Tree.line_steps] at h6
  rw [h6 hum (by omega)] at h5
  rw [hr] at h3
  have hlen : ((Tree.line n).number Shape.empty.size).bfs.length = n + 1 := by
    rw [← Tree.line_count Shape.empty.size n, ← Tree.length_preorder, ← (Tree.bfs_perm _).length_eq, List.length_map]
  refine ⟨f, st, _, h1, h3, h5, fun i hi => ?_, ?_⟩
  · refine ⟨((Tree.line n).number Shape.empty.size).bfs[i]'(by omega), ?_⟩
    simp [pulls, show i < n + 2 by omega, hlen, hi]
  · simp [pulls, hlen]

/-- **C64**, `breadth_first_traverse` is *not* `O(n)`: for every constant `c` there is a tree of some number `n` of
nodes, made by the builder, whose complete iteration takes more than `c·n` steps. -/
theorem C64_bft_not_linear (c : Nat) : ∃ n, ∀ cap um, n ≤ cap → n ≤ um → ∃ f st items steps,
    nestBuild cap () (lineCalls (n - 1)) Forest.new = .ok 0 f ∧ Forest.breadthFirstTraverse um f 0 = .ok st ∧
    pullC (Forest.bftNextC um f) (n + 1) st = .ok (items, steps) ∧
    (∀ i, i < n → ∃ e, items[i]? = some (some e)) ∧ items[n]? = some none ∧ c * n < steps := by
  refine ⟨c + 1, fun cap um h1 h2 => ?_⟩
  obtain ⟨f, st, items, g1, g2, g3, g4, g5⟩ := C64_bft_worst_case c cap um h1 h2
  refine ⟨f, st, items, _, g1, g2, g3, g4, g5, ?_⟩
  have : (c + 1) ^ 2 = c * (c + 1) + (c + 1) := by ring
  omega

/-- The subtree of node 0 of the sample has 6 nodes on 3 levels: a complete iteration without queue takes 7 calls and
`(2·1+1) + (2·4+1) + (2·6+1) + (2·6+1) + 3` further steps, with a queue 7 calls and `5 + 6 + 6 + 5 + 3 + 2`. -/
example : ∃ st st' items, Forest.breadthFirstTraverse 1000 Sample.built 0 = .ok st ∧
    Sample.built.allocatingBreadthFirstTraverse 0 = .ok st' ∧
    pullC (Forest.bftNextC 1000 Sample.built) 7 st = .ok (items, 7 + 41) ∧
    pullC Sample.built.abftNextC 7 st' = .ok (items, 7 + 27) ∧ items.length = 7 := by
  obtain ⟨st, h1, h2⟩ := C64_bft_quadratic Sample.models Sample.isTree (by decide) 1000
  obtain ⟨st', h3, h4⟩ := C64_abft_linear Sample.models Sample.isTree (by decide)
  obtain ⟨c, h5, _, h6⟩ := h2 7
  obtain ⟨⟨c', h7, _, h8⟩, _⟩ := h4 7
  have e1 := h6 (by decide) (by decide)
  have e2 := h8 (by decide)
  subst e1; subst e2
  exact ⟨st, st', _, h1, h3, h5, h7, by simp [pulls]⟩

/-! ### The hypotheses can be met

Each example applies the theorem named in its comment to a concrete forest. -/

section
/-- `C64_bft_worst_case`: a line of eleven nodes. -/
example := C64_bft_worst_case 10 11 100 (by decide) (by decide)

end

end Treena
