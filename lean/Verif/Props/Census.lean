import Mathlib.Data.List.Nodup
import Verif.Proof.Capacity
import Verif.Props.Traverse
import Verif.Props.Create
import Verif.Props.Detach
import Verif.Props.Insert
import Verif.Props.Remove
import Verif.Props.Clone
import Verif.Props.Builders
import Verif.Props.Consistency
import Verif.Props.SampleRun
/-!
# Counting nodes (C52, C53, C54, C57, C58)
-/
set_option autoImplicit false

namespace Treena
open Shape
variable {T : Type} {cap : Nat} {f : Forest T} {s : Shape}

/-! ### C52: the capacity of the ID type -/

/-- **C52**.  After every history (calls that panic included), at most `cap` IDs have been handed out, and every live
node has an ID below `cap`: it is representable in the ID type. -/
theorem C52_within_capacity (hr : Reachable cap f) : f.issued ≤ cap ∧ ∀ x, f.isAlive x = true → x < cap := by
  obtain ⟨ops, rfl⟩ := hr
  have h := ((run_fits (cap := cap) ops (Forest.new : Forest T)) coherent_new).2 (Nat.zero_le _)
  refine ⟨h, fun x hx => Nat.lt_of_lt_of_le ?_ h⟩
  unfold Forest.isAlive at hx
  apply Classical.byContradiction
  intro hn
  rw [List.getElem?_eq_none (by unfold Forest.issued at hn; omega)] at hx
  cases hx

/-- Capacity 2: the third creation panics. -/
example : (Op.run 2 (Forest.new : Forest Nat) [.createRoot 1, .nest 2 [.addChild 3], .createRoot 4]).issued = 2 := by
  decide

/-! ### C53: the traversals of the roots enumerate the live nodes -/

theorem mem_liveNodes (hm : Models f s) (x : Nat) : x ∈ f.liveNodes ↔ s.alive x = true := by
  simp only [Forest.liveNodes, List.mem_filter, List.mem_range, hm.isAlive]
  exact ⟨fun h => h.2, fun h => ⟨by rw [hm.dataLen]; exact hm.valid.alive_lt x h, h⟩⟩

theorem liveNodes_nodup (f : Forest T) : f.liveNodes.Nodup := List.nodup_range.filter _

/-- The live nodes without a parent. -/
def Forest.rootNodes (f : Forest T) : List Nat :=
  f.liveNodes.filter fun x => decide (f.parentId x = .ok none)

theorem mem_rootNodes (hm : Models f s) (x : Nat) : x ∈ f.rootNodes ↔ s.alive x = true ∧ s.parent x = none := by
  simp only [Forest.rootNodes, List.mem_filter, mem_liveNodes hm, decide_eq_true_eq]
  constructor
  · rintro ⟨h1, h2⟩
    rw [hm.describes.parent x h1] at h2
    exact ⟨h1, by simpa using h2⟩
  · rintro ⟨h1, h2⟩
    exact ⟨h1, by rw [hm.describes.parent x h1, h2]⟩

theorem root_unique {par : Nat → Option Nat} {r r' y : Nat} (h : AncOrSelf par r y) (h' : AncOrSelf par r' y)
    (hr : par r = none) (hr' : par r' = none) : r = r' := by
  induction h with
  | refl =>
    cases h' with
    | refl => rfl
    | step hp _ => rw [hr] at hp; cases hp
  | step hp _ ih =>
    cases h' with
    | refl => rw [hr'] at hp; cases hp
    | step hp' h'' => rw [hp] at hp'; cases hp'; exact ih h''

theorem exists_root (hv : s.Valid) {y : Nat} (hy : s.alive y = true) :
    ∃ r, s.alive r = true ∧ s.parent r = none ∧ AncOrSelf s.parent r y := by
  have := hv.rooted y
  induction this with
  | root h => exact ⟨_, hy, h, .refl⟩
  | step hp _ ih =>
    obtain ⟨r, h1, h2, h3⟩ := ih (hv.parent_alive _ _ hp).2
    exact ⟨r, h1, h2, .step hp h3⟩

/-- **C53**.  Traversing the trees of all roots, one meets every live node exactly once: for each root `r` the
depth-first traversal is `dfs r`, the nodes opened by these traversals, one after the other, are the live nodes in
some order without repetition; each live node belongs to the tree of exactly one root. -/
theorem C53_roots_cover (hm : Models f s) :
    ∃ dfs : Nat → List (Ev Nat),
      (∀ r ∈ f.rootNodes, ∃ st, f.depthFirstTraverse r = .ok st ∧ ∀ n, pull f.dftNext n st = .ok (pulls (dfs r) n)) ∧
      (f.rootNodes.flatMap fun r => Tree.opens (dfs r)).Perm f.liveNodes ∧
      ∀ y ∈ f.liveNodes, ∃ r ∈ f.rootNodes, Ev.opn y ∈ dfs r ∧ ∀ r' ∈ f.rootNodes, Ev.opn y ∈ dfs r' → r' = r := by
  have hex : ∀ r, ∃ t : Tree Nat, r ∈ f.rootNodes → Tree.IsTree s.kids t ∧ t.root = r := by
    intro r
    by_cases hr : r ∈ f.rootNodes
    · obtain ⟨t, ht⟩ := Tree.exists_tree hm.valid ((mem_rootNodes hm r).1 hr).1
      exact ⟨t, fun _ => ht⟩
    · exact ⟨.node 0 [], fun h => absurd h hr⟩
  obtain ⟨tr, htr⟩ := Classical.axiomOfChoice hex
  have hopen : ∀ r ∈ f.rootNodes, ∀ y, y ∈ (tr r).preorder ↔ AncOrSelf s.parent r y := by
    intro r hr y
    rw [Tree.mem_preorder_iff hm.valid (htr r hr).1, (htr r hr).2]
  refine ⟨fun r => (tr r).events, fun r hr => ?_, ?_, fun y hy => ?_⟩
  · exact C19_depth_first hm ((mem_rootNodes hm r).1 hr).1 (htr r hr).1 (htr r hr).2
  · rw [List.perm_ext_iff_of_nodup ?_ (liveNodes_nodup f)]
    · intro y
      simp only [List.mem_flatMap, Tree.opens_events, mem_liveNodes hm]
      constructor
      · rintro ⟨r, hr, hy⟩
        exact ((hopen r hr y).1 hy).alive_down hm.valid ((mem_rootNodes hm r).1 hr).1
      · intro hy
        obtain ⟨r, h1, h2, h3⟩ := exists_root hm.valid hy
        have hr := (mem_rootNodes hm r).2 ⟨h1, h2⟩
        exact ⟨r, hr, (hopen r hr y).2 h3⟩
    · rw [List.nodup_flatMap]
      refine ⟨fun r hr => ?_, ?_⟩
      · rw [Tree.opens_events]; exact Tree.preorder_nodup hm.valid _ (htr r hr).1
      · have hnd : f.rootNodes.Nodup := (liveNodes_nodup f).filter _
        refine hnd.imp_of_mem fun {a b} ha hb hne => ?_
        intro y hy hy'
        simp only [Tree.opens_events] at hy hy'
        exact hne (root_unique ((hopen a ha y).1 hy) ((hopen b hb y).1 hy') ((mem_rootNodes hm a).1 ha).2
          ((mem_rootNodes hm b).1 hb).2)
  · obtain ⟨r, h1, h2, h3⟩ := exists_root hm.valid ((mem_liveNodes hm y).1 hy)
    have hr := (mem_rootNodes hm r).2 ⟨h1, h2⟩
    refine ⟨r, hr, (Tree.mem_events_iff _ y).1.2 ((hopen r hr y).2 h3), fun r' hr' h => ?_⟩
    exact root_unique ((hopen r' hr' y).1 ((Tree.mem_events_iff _ y).1.1 h)) h3 ((mem_rootNodes hm r').1 hr').2 h2

example : Sample.built.rootNodes = [0, 6] ∧ Sample.built.liveNodes = [0, 1, 2, 3, 4, 5, 6] := by decide

/-! ### C54: depths -/

/-- The parent of an element of the path is the next one. -/
theorem UpPath.next {par : Nat → Option Nat} {y : Nat} {L : List Nat} (h : UpPath par y L) :
    ∀ {d u x : Nat}, L[d]? = some u → par u = some x → L[d + 1]? = some x := by
  induction h with
  | root h0 =>
    intro d u x h1 h2
    cases d with
    | zero => simp at h1; subst h1; rw [h0] at h2; cases h2
    | succ d => simp at h1
  | step hp hL ih =>
    intro d u x h1 h2
    cases d with
    | zero =>
      simp at h1; subst h1
      rw [hp] at h2; cases h2
      cases hL <;> rfl
    | succ d => simpa using ih (by simpa using h1) h2

theorem UpPath.before {par : Nat → Option Nat} {y : Nat} {L : List Nat} (h : UpPath par y L) :
    ∀ {d x : Nat}, L[d + 1]? = some x → ∃ u, L[d]? = some u ∧ par u = some x := by
  induction h with
  | root h0 => intro d x h1; simp at h1
  | step hp hL ih =>
    intro d x h1
    cases d with
    | zero =>
      refine ⟨_, rfl, ?_⟩
      rw [hp]
      cases hL <;> simpa using h1
    | succ d => simpa using ih (d := d) (by simpa using h1)

namespace Tree

theorem mem_bfs {α : Type} (t : Tree α) (a : α) (d : Nat) : (a, d) ∈ t.bfs ↔ a ∈ t.level d := by
  simp only [bfs, List.mem_flatMap, List.mem_range, List.mem_map, Prod.mk.injEq]
  constructor
  · rintro ⟨d', _, a', h, rfl, rfl⟩; exact h
  · intro h
    refine ⟨d, ?_, a, h, rfl, rfl⟩
    apply Classical.byContradiction
    intro hn
    rw [(level_nil_iff t d).2 (by omega)] at h; cases h

theorem mem_levelL {α : Type} {d : Nat} {ts : List (Tree α)} {y : α} : y ∈ levelL d ts ↔ ∃ t ∈ ts, y ∈ t.level d := by
  induction ts with
  | nil => simp [levelL]
  | cons t ts ih => simp [levelL, ih]

mutual
theorem mem_devents {α : Type} : ∀ (t : Tree α) (b : Nat) (y : α) (d : Nat),
    ((.opn y, d) ∈ t.devents b ↔ b ≤ d ∧ y ∈ t.level (d - b)) ∧
    ((.cls y, d) ∈ t.devents b ↔ b ≤ d ∧ y ∈ t.level (d - b))
  | .node x ts, b, y, d => by
    have h := mem_deventsL ts (b + 1) y d
    have key : (y = x ∧ d = b ∨ (b + 1 ≤ d ∧ y ∈ levelL (d - (b + 1)) ts)) ↔
        b ≤ d ∧ y ∈ (Tree.node x ts).level (d - b) := by
      rcases Nat.lt_trichotomy d b with h1 | h1 | h1
      · constructor
        · rintro (⟨_, h2⟩ | ⟨h2, _⟩) <;> omega
        · rintro ⟨h2, _⟩; omega
      · subst h1; rw [Nat.sub_self, level]; simp
      · have e : d - b = (d - (b + 1)) + 1 := by omega
        rw [e, level]
        constructor
        · rintro (⟨_, h2⟩ | ⟨_, h2⟩)
          · omega
          · exact ⟨by omega, h2⟩
        · rintro ⟨_, h2⟩; exact .inr ⟨by omega, h2⟩
    constructor
    · rw [← key, ← h.1]; simp [devents]
    · rw [← key, ← h.2]; simp [devents, or_comm]
theorem mem_deventsL {α : Type} : ∀ (ts : List (Tree α)) (b : Nat) (y : α) (d : Nat),
    ((.opn y, d) ∈ deventsL b ts ↔ b ≤ d ∧ y ∈ levelL (d - b) ts) ∧
    ((.cls y, d) ∈ deventsL b ts ↔ b ≤ d ∧ y ∈ levelL (d - b) ts)
  | [], b, y, d => by simp [deventsL, levelL]
  | t :: ts, b, y, d => by
    have h1 := mem_devents t b y d
    have h2 := mem_deventsL ts b y d
    simp only [deventsL, levelL, List.mem_append, h1.1, h1.2, h2.1, h2.2, ← and_or_left, and_self]
end

/-- A node is at depth `d` exactly if the root is its `d`-th ancestor. -/
theorem level_iff {s : Shape} (hv : s.Valid) : ∀ (d : Nat) (t : Tree Nat), IsTree s.kids t → ∀ y L, UpPath s.parent y L →
    (y ∈ t.level d ↔ L[d]? = some t.root) := by
  intro d
  induction d with
  | zero =>
    rintro ⟨x, ts⟩ ht y L hL
    have : L[0]? = some y := by cases hL <;> rfl
    rw [this]
    simp [level, root]
  | succ d ih =>
    rintro ⟨x, ts⟩ ht y L hL
    rw [level, mem_levelL]
    obtain ⟨hk, hf⟩ := ht
    rw [isForest_iff] at hf
    constructor
    · rintro ⟨u, hu, hy⟩
      have h1 := (ih u (hf u hu) y L hL).1 hy
      have hux : s.parent u.root = some x :=
        (hv.mem_kids _ _).1 (by rw [hk]; exact List.mem_map_of_mem hu)
      exact hL.next h1 hux
    · intro h
      obtain ⟨c, h1, h2⟩ := hL.before h
      have : c ∈ ts.map root := by rw [← hk]; exact (hv.mem_kids _ _).2 h2
      obtain ⟨u, hu, rfl⟩ := List.mem_map.1 this
      exact ⟨u, hu, (ih u (hf u hu) y L hL).2 h1⟩

end Tree

/-- **C54**.  Depths are numbers of generations: `breadth_first_traverse(n)` gives the item `(x, d)` exactly if the
`d`-th item (from 0) of `ancestors_or_self(x)` is `n`; the same holds for the items of
`shallow_depth_first_traverse(n, None)`, opening and closing. -/
theorem C54_depth_is_generation (um : Nat) (hm : Models f s) {n x : Nat} (hn : s.alive n = true)
    (hx : s.alive x = true) :
    ∃ (up : List Nat) (bfs : List (Nat × Nat)) (dev : List (Ev Nat × Nat)),
      (∃ st, f.ancestorsOrSelf x = .ok st ∧ ∀ k, pull f.ancestorsNext k st = .ok (pulls up k)) ∧
      (∃ st, Forest.breadthFirstTraverse um f n = .ok st ∧
        ∀ k, pull (Forest.bftNext um f) k st = .ok (pulls bfs k)) ∧
      IteratesOver f.shallowNext f.shallowNextBack (Forest.shallowDepthFirstTraverse um f n none) dev ∧
      ∀ d, ((x, d) ∈ bfs ↔ up[d]? = some n) ∧ ((.opn x, d) ∈ dev ↔ up[d]? = some n) ∧
        ((.cls x, d) ∈ dev ↔ up[d]? = some n) := by
  obtain ⟨up, hup, h1, _⟩ := C24_ancestors hm hx
  obtain ⟨t, ht, rfl⟩ := Tree.exists_tree hm.valid hn
  refine ⟨up, t.bfs, t.devents 0, h1, C22_breadth_first um hm hn ht rfl,
    ((C21_shallow um hm hn ht rfl).2.1 none (.inl rfl)).1, fun d => ?_⟩
  have hl := Tree.level_iff hm.valid d t ht x up hup
  have := Tree.mem_devents t 0 x d
  simp only [Nat.zero_le, Nat.sub_zero, true_and] at this
  exact ⟨by rw [Tree.mem_bfs, hl], by rw [this.1, hl], by rw [this.2, hl]⟩

/-- In the sample, 4 is at depth 2 below 0: the ancestors of 4 are 4, 2, 0. -/
example : ((4, 2) : Nat × Nat) ∈ Sample.tree.bfs ∧ UpPath Sample.shape.parent 4 [4, 2, 0] :=
  ⟨by decide, .step rfl (.step rfl (.root rfl))⟩

/-! ### C57: how many nodes are alive -/

theorem live_append {g : Forest T} {l : List T} (h : g.data = f.data ++ l.map some) :
    g.liveNodes = f.liveNodes ++ List.range' f.issued l.length := by
  have e : List.range g.data.length = List.range f.data.length ++ List.range' f.data.length l.length := by
    rw [h, List.length_append, List.length_map, List.range_eq_range', List.range_eq_range',
      ← List.range'_append_1, Nat.zero_add]
  unfold Forest.liveNodes
  rw [e, List.filter_append]
  congr 1
  · refine List.filter_congr fun x hx => ?_
    rw [List.mem_range] at hx
    unfold Forest.isAlive
    rw [h, List.getElem?_append_left hx]
  · rw [List.filter_eq_self.2]
    · rfl
    · intro x hx
      rw [List.mem_range'_1] at hx
      unfold Forest.isAlive
      rw [h, List.getElem?_append_right hx.1]
      have : x - f.data.length < l.length := by omega
      simp [this]

theorem live_congr {g : Forest T} (h1 : g.data.length = f.data.length) (h : ∀ x, g.isAlive x = f.isAlive x) :
    g.liveNodes = f.liveNodes := by
  unfold Forest.liveNodes
  rw [h1]
  exact List.filter_congr fun x _ => h x

/-- **C57**, calls that only move nodes or write data.  In every state, consistent or not, with every outcome (`Ok`,
`Err` or panic), the live nodes are the same afterwards, and no ID is handed out. -/
theorem C57_moves_keep_nodes (x : Nat) (dest : InsertAs) (v : T) (f : Forest T) :
    ∀ g, (g = (Forest.insert x dest f).state ∨ g = (Forest.detach x f).state ∨
      g = (Forest.detachSingle x f).state ∨ g = (Forest.setData x v f).state) →
    g.liveNodes = f.liveNodes ∧ g.issued = f.issued := by
  have key : ∀ {α : Type} (m : M Hier α), (Forest.onHier m f).state.liveNodes = f.liveNodes ∧
      (Forest.onHier m f).state.issued = f.issued := by
    intro α m
    have := onHier_data m f
    exact ⟨live_congr (by rw [this]) fun x => by unfold Forest.isAlive; rw [this], by unfold Forest.issued; rw [this]⟩
  rintro g (rfl | rfl | rfl | rfl)
  · exact key _
  · exact key _
  · exact key _
  · obtain ⟨f', h1, h2, h3, h4⟩ := C34_data_mut f x v
    rw [h1]
    have hlen : f'.data.length = f.data.length := by
      have : (Forest.setData x v f).state.data.length = f.data.length := by
        unfold Forest.setData
        cases f.getData x <;> simp [Res.state]
      rw [h1] at this; exact this
    refine ⟨live_congr hlen fun y => ?_, hlen⟩
    show f'.isAlive y = f.isAlive y
    rw [← getData_isSome_isAlive, ← getData_isSome_isAlive]
    by_cases e : y = x
    · subst e; rw [h4]; simp
    · rw [h3 y e]

theorem pushRoot_data {d : T} {id : Nat} {f' : Forest T} (h : pushRoot cap d f = .ok id f') :
    f'.data = f.data ++ [some d] := by
  by_cases hcap : f.hier.nbrs.length < cap
  · have hr : Hier.createRoot cap f.hier = .ok f.hier.nbrs.length
        { nbrs := f.hier.nbrs ++ [Neighbors.newRoot f.hier.nbrs.length] } := by
      simp [Hier.createRoot, Hier.fromUsize, hcap]
    have : pushRoot cap d f = .ok f.hier.nbrs.length (Forest.mk ⟨f.hier.nbrs ++ [Neighbors.newRoot f.hier.nbrs.length]⟩
        (f.data ++ [some d])) := by
      simp [pushRoot, Forest.onHier, M.zoom, hr, Forest.pushData]
    rw [this] at h; cases h; rfl
  · have hr : pushRoot cap d f = .fail
        (.panic "[precondition] node ID overflowed presumably due to too many node creations") f := by
      simp [pushRoot, Forest.onHier, M.zoom, Hier.createRoot, Hier.fromUsize, hcap]
    rw [hr] at h; cases h

theorem createInsertMomo_data {d : T} {dest : InsertAs} {id : Nat} {f' : Forest T}
    (h : Forest.createInsertMomo cap d dest f = .ok id f') : f'.data = f.data ++ [some d] := by
  rw [createInsertMomo_eq, M.run_bind] at h
  simp only [M.read] at h
  split at h
  · cases h
  · rw [M.run_bind] at h
    cases h1 : pushRoot cap d f with
    | fail e g => rw [h1] at h; cases h
    | ok n g =>
      rw [h1] at h
      simp only [M.run_bind] at h
      have h2 := onHier_data (Hier.insert n dest) g
      cases h3 : Forest.onHier (Hier.insert n dest) g with
      | fail e g' => rw [h3] at h; cases h
      | ok r g' =>
        rw [h3] at h h2
        cases r with
        | error e => cases h
        | ok u =>
          cases h
          rw [← pushRoot_data h1]; exact h2

/-- **C57**, creation.  In every state with coherent storages (every reachable one): a `create_root` or
`create_insert` (or `NodeMut::create`) that returned has added exactly the returned node. -/
theorem C57_create_adds_one (hc : Coherent f) {d : T} {id : Nat} {g : Forest T}
    (h : Forest.createRoot cap d f = .ok id g ∨ (∃ dest, Forest.createInsert cap d dest f = .ok id g) ∨
      ∃ self dest, NodeMut.create cap self d dest f = .ok id g) :
    g.liveNodes = f.liveNodes ++ [id] ∧ g.issued = f.issued + 1 := by
  have fin : g.data = f.data ++ [some d] → id = f.issued → g.liveNodes = f.liveNodes ++ [id] ∧ g.issued = f.issued + 1 := by
    intro h1 h2
    rw [h2]
    exact ⟨live_append (l := [d]) h1, by unfold Forest.issued; rw [h1]; simp⟩
  have hi : ∀ dest, Forest.createInsertMomo cap d dest f = .ok id g →
      g.liveNodes = f.liveNodes ++ [id] ∧ g.issued = f.issued + 1 := fun dest h =>
    fin (createInsertMomo_data h) ((createInsertMomo_makes cap d dest f id g h) hc).1
  rcases h with h | ⟨dest, h⟩ | ⟨self, dest, h⟩
  · have hcap : f.issued < cap := by
      apply Classical.byContradiction; intro hn
      rw [(C02_create_root_any_state hc cap d).2 (by omega)] at h; cases h
    rw [(C02_create_root_any_state hc cap d).1 hcap] at h
    cases h
    exact fin rfl rfl
  · exact hi dest h
  · exact hi _ h

theorem grown_live {g : Forest T} {s' : Shape} {n : Nat} (hm : Models f s) (hg : Grown f s g s')
    (hsz : s'.size = s.size + n) (hal : ∀ x, s.size ≤ x → x < s'.size → s'.alive x = true) :
    g.liveNodes = f.liveNodes ++ List.range' f.issued n := by
  have e : List.range g.data.length = List.range f.data.length ++ List.range' f.data.length n := by
    rw [hg.models.dataLen, hsz, hm.dataLen, List.range_eq_range', List.range_eq_range',
      ← List.range'_append_1, Nat.zero_add]
  unfold Forest.liveNodes
  rw [e, List.filter_append]
  congr 1
  · refine List.filter_congr fun x hx => ?_
    rw [List.mem_range, hm.dataLen] at hx
    rw [hg.models.isAlive, hm.isAlive, hg.alive x hx]
  · rw [List.filter_eq_self.2]
    · rfl
    · intro x hx
      rw [List.mem_range'_1, hm.dataLen] at hx
      rw [hg.models.isAlive]; exact hal x hx.1 (by omega)

/-- **C57**, copies and builders, on a consistent forest: a `clone_local_tree`, `clone_foreign_tree` that returned has
added exactly as many nodes as the source tree has; a `NestTreeBuilder` as many as described.  The new nodes are the
next unissued IDs. -/
theorem C57_copies_add_count (hm : Models f s) :
    (∀ t, Tree.IsTree s.kids t → s.alive t.root = true → ∀ cl id g, Forest.cloneLocalTree cap cl t.root f = .ok id g →
      g.liveNodes = f.liveNodes ++ List.range' f.issued t.count) ∧
    (∀ fs ss t, Models fs ss → Tree.IsTree ss.kids t → ss.alive t.root = true → ∀ cl id g,
      Forest.cloneForeignTree cap cl fs t.root f = .ok id g →
      g.liveNodes = f.liveNodes ++ List.range' f.issued t.count) ∧
    (∀ d calls id g, nestBuild cap d calls f = .ok id g →
      g.liveNodes = f.liveNodes ++ List.range' f.issued (Tree.node d (NestCall.treesL calls)).count) := by
  have key : ∀ {cl : T → Option T} {dat : Nat → Option T} {t : Tree Nat} {m : M (Forest T × Unit) Nat} {id : Nat}
      {g : Forest T}, CloneOutcome f s cap cl (fun u _ _ => .ok u) dat t () (m (f, ())) → Forest.noHook m f = .ok id g →
      g.liveNodes = f.liveNodes ++ List.range' f.issued t.count := by
    intro cl dat t m id g h h1
    obtain ⟨_, _, _, s', h2⟩ := (noHook_outcome h).2 _ _ h1
    exact grown_live hm h2.grown h2.size h2.alive
  refine ⟨fun t ht hx cl id g h => key (cloneLocal_spec hm ht hx ()) h,
    fun fs ss t hms ht hx cl id g h => key (cloneForeign_spec hm hms ht hx ()) h, fun d calls id g h => ?_⟩
  have := (C31_nest_builder_any hm cap d calls)
  by_cases hc : cap ≤ s.size
  · rw [this.1 hc] at h; cases h
  · obtain ⟨g', s', h1, _, h2⟩ := this.2 (by omega)
    rw [h] at h2
    cases hp : (NestCall.planL (cap - s.size - 1) calls).2 with
    | error e => rw [hp] at h2; cases h2
    | ok b =>
      rw [hp] at h2; cases h2
      have := planL_ok calls (cap - s.size - 1) b hp
      rw [this] at h1
      exact grown_live hm h1.grown h1.size h1.alive

/-- **C57**, removal.  On a consistent forest, the live nodes are the removed ones (the nodes opened by
`depth_first_traverse(x)`) and those alive afterwards; no ID is handed out or taken back. -/
theorem C57_remove_subtracts (hm : Models f s) {t : Tree Nat} (ht : Tree.IsTree s.kids t) (hx : s.alive t.root = true) :
    ∃ g, Forest.remove t.root f = .ok () g ∧ f.liveNodes.Perm (t.preorder ++ g.liveNodes) ∧
      g.liveNodes.length + t.count = f.liveNodes.length ∧ g.issued = f.issued := by
  obtain ⟨⟨g, s', h1, h2⟩, _⟩ := C15_remove hm hx
  have hp : f.liveNodes.Perm (t.preorder ++ g.liveNodes) := by
    rw [List.perm_ext_iff_of_nodup (liveNodes_nodup f)]
    · intro y
      rw [List.mem_append, mem_liveNodes hm, mem_liveNodes h2.models, h2.alive, Tree.mem_preorder_iff hm.valid ht]
      constructor
      · intro hy
        by_cases hay : AncOrSelf s.parent t.root y
        · exact .inl hay
        · exact .inr ⟨hy, hay⟩
      · rintro (hy | hy)
        · exact hy.alive_down hm.valid hx
        · exact hy.1
    · rw [List.nodup_append]
      refine ⟨Tree.preorder_nodup hm.valid t ht, liveNodes_nodup g, fun a ha b hb => ?_⟩
      rintro rfl
      rw [mem_liveNodes h2.models, h2.alive] at hb
      exact hb.2 ((Tree.mem_preorder_iff hm.valid ht a).1 ha)
  refine ⟨g, h1, hp, ?_, ?_⟩
  · have := hp.length_eq
    rw [List.length_append, Tree.length_preorder] at this
    omega
  · unfold Forest.issued; rw [h2.models.dataLen, hm.dataLen, h2.size]

example : ∃ g, Forest.remove 2 Sample.built = .ok () g ∧ g.liveNodes.length + 3 = Sample.built.liveNodes.length := by
  obtain ⟨g, h1, _, h2, _⟩ := C57_remove_subtracts Sample.models Sample.isTree2 rfl
  exact ⟨g, h1, h2⟩

example : ∃ g, Forest.cloneLocalTree 100 some 2 Sample.built = .ok 8 g ∧
    g.liveNodes = [0, 1, 2, 3, 4, 5, 6] ++ [8, 9, 10] := by
  obtain ⟨g, _, h, _⟩ := C28_clone_local Sample.models (x := 2) rfl Sample.isTree2 rfl (cap := 100) (by decide) some
    (by decide)
  exact ⟨g, h, ((C57_copies_add_count Sample.models).1 Sample.tree2 Sample.isTree2 rfl some _ g h).trans (by decide)⟩

/-! ### C58: sizes of traversals -/

/-- **C58**.  `breadth_first_traverse(x)` gives as many items as the tree of `x` has nodes, `depth_first_traverse(x)`
twice as many, neither more than there are live nodes (twice that number); all depths reported are below the number
of nodes, and every depth up to the maximal one is reported. -/
theorem C58_traversal_sizes (um : Nat) (hm : Models f s) {x : Nat} (hx : s.alive x = true) :
    ∃ (dfs : List (Ev Nat)) (bfs : List (Nat × Nat)),
      (∃ st, f.depthFirstTraverse x = .ok st ∧ ∀ n, pull f.dftNext n st = .ok (pulls dfs n)) ∧
      (∃ st, Forest.breadthFirstTraverse um f x = .ok st ∧
        ∀ n, pull (Forest.bftNext um f) n st = .ok (pulls bfs n)) ∧
      dfs.length = 2 * bfs.length ∧ 0 < bfs.length ∧ bfs.length ≤ f.liveNodes.length ∧
      (∀ q ∈ bfs, q.2 < bfs.length) ∧
      ∀ q ∈ bfs, ∀ d, d ≤ q.2 → ∃ y, (y, d) ∈ bfs := by
  obtain ⟨t, ht, rfl⟩ := Tree.exists_tree hm.valid hx
  have hlen : t.bfs.length = t.count := by
    have := (Tree.bfs_perm t).length_eq
    rwa [List.length_map, Tree.length_preorder] at this
  refine ⟨_, _, C19_depth_first hm hx ht rfl, C22_breadth_first um hm hx ht rfl, ?_, ?_, ?_, ?_, ?_⟩
  · rw [Tree.length_events, hlen]
  · rw [hlen]; cases t; simp [Tree.count]
  · rw [hlen, ← Tree.length_preorder]
    refine (List.subperm_of_subset (Tree.preorder_nodup hm.valid t ht) fun y hy => ?_).length_le
    rw [mem_liveNodes hm]
    exact ((Tree.mem_preorder_iff hm.valid ht y).1 hy).alive_down hm.valid hx
  · rintro ⟨y, d⟩ hq
    rw [Tree.mem_bfs] at hq
    have := (Tree.mem_devents t 0 y d).1.2 ⟨Nat.zero_le _, hq⟩
    have := Tree.devents_lt t 0 _ this
    rw [hlen]; simpa using this
  · rintro ⟨y, d'⟩ hq d hd
    rw [Tree.mem_bfs] at hq
    have h1 : ¬ t.height ≤ d' := fun h => by rw [(Tree.level_nil_iff t d').2 h] at hq; cases hq
    have h2 : t.level d ≠ [] := fun h => h1 (Nat.le_trans ((Tree.level_nil_iff t d).1 h) hd)
    obtain ⟨z, hz⟩ := List.exists_mem_of_ne_nil _ h2
    exact ⟨z, (Tree.mem_bfs t z d).2 hz⟩

example : Sample.tree.bfs.length = 6 ∧ Sample.tree.events.length = 12 := by decide

/-! ### The hypotheses can be met

Each example applies the theorem named in its comment to a concrete forest. -/

section
/-- `C52_within_capacity`: the sample forest. -/
example : Sample.built.issued ≤ 100 := (C52_within_capacity Sample.reachable).1

/-- `C53_roots_cover`: the sample forest with its roots 0 and 6. -/
example := C53_roots_cover Sample.models

/-- `C53_roots_cover`: the sample forest with its roots 0 and 6 (continued). -/
example : Sample.built.rootNodes = [0, 6] := by decide

/-- `C54_depth_is_generation`: nodes 0 and 5 of the sample forest. -/
example := C54_depth_is_generation 1000 Sample.models (n := 0) (x := 5) rfl rfl

/-- `C57_create_adds_one`: a new child of node 2. -/
example : ∃ g, Forest.createInsert 100 42 (.lastChildOf 2) Sample.built = .ok 8 g ∧ g.liveNodes = [0, 1, 2, 3, 4, 5, 6] ++ [8] :=
  ⟨_, rfl, (C57_create_adds_one (cap := 100) (d := 42) Sample.coherent (.inr (.inl ⟨.lastChildOf 2, rfl⟩))).1⟩

/-- `C57_moves_keep_nodes`: detaching node 2. -/
example : (Forest.detach 2 Sample.built).state.liveNodes = Sample.built.liveNodes :=
  (C57_moves_keep_nodes 2 (.firstChildOf 0) 42 Sample.built _ (.inr (.inl rfl))).1

/-- `C58_traversal_sizes`: from node 0. -/
example := C58_traversal_sizes 1000 Sample.models (x := 0) rfl

end

end Treena
