import Verif.Proof.Walk
/-! Depth-first and shallow depth-first traversers. -/

namespace Treena
open Hier

variable {h : Hier} {s : Shape}

/-- One step of a traverser forwards and the corresponding step backwards. -/
def StepRel {ε : Type} (stepF stepB : ε → R (Option ε)) (u v : ε) : Prop :=
  stepF u = .ok (some v) ∧ stepB v = .ok (some u)

section alive
variable (ha : Agrees h s) (hv : s.Valid)
include ha hv

theorem dft_steps : Tree.Steps s (fun x _ => Ev.opn x) (fun x _ => Ev.cls x) (fun _ => false)
    (StepRel (Dft.stepFwd h) (Dft.stepBack h)) where
  leaf := by
    intro x d hx hk
    have hk : s.kids x = [] := by simpa using hk
    constructor
    · simp only [Dft.stepFwd, travNbr_alive ha hv hx, ha.firstChild_get hv hx, hk]; rfl
    · simp only [Dft.stepBack, travNbr_alive ha hv hx, ha.lastChild hv hx, hk]; rfl
  down := by
    intro x d a post hx _ hk
    have haa : s.alive a = true := hv.kid_alive (p := x) (by rw [hk]; simp)
    have hp : s.parent a = some x := hv.kid_parent (by rw [hk]; simp)
    constructor
    · simp only [Dft.stepFwd, travNbr_alive ha hv hx, ha.firstChild_get hv hx, hk]; rfl
    · simp only [Dft.stepBack, travNbr_alive ha hv haa, ha.prevSibling hv haa, prev_first hv hk,
        ha.getParent_get hv haa, hp, expect_some]
  over := by
    intro x d a b pre post hx hk
    have haa : s.alive a = true := hv.kid_alive (p := x) (by rw [hk]; simp)
    have hab : s.alive b = true := hv.kid_alive (p := x) (by rw [hk]; simp)
    constructor
    · simp only [Dft.stepFwd, travNbr_alive ha hv haa, ha.nextSibling_get hv haa, next_mid hv hk]
    · simp only [Dft.stepBack, travNbr_alive ha hv hab, ha.prevSibling hv hab, prev_mid hv hk]
  up := by
    intro x d a pre hx _ hk
    have haa : s.alive a = true := hv.kid_alive (p := x) (by rw [hk]; simp)
    have hp : s.parent a = some x := hv.kid_parent (by rw [hk]; simp)
    constructor
    · simp only [Dft.stepFwd, travNbr_alive ha hv haa, ha.nextSibling_get hv haa, next_last hv hk,
        ha.getParent_get hv haa, hp, expect_some]
    · simp only [Dft.stepBack, travNbr_alive ha hv hx, ha.lastChild hv hx, hk]; simp

theorem shallow_steps (mx : Option Nat) :
    Tree.Steps s (fun x d => (Ev.opn x, d)) (fun x d => (Ev.cls x, d)) (fun d => decide (some d = mx))
    (StepRel (Shallow.stepFwd h mx) (Shallow.stepBack h mx)) where
  leaf := by
    intro x d hx hk
    by_cases hd : some d = mx
    · constructor
      · simp only [Shallow.stepFwd, hd, if_true]
      · simp only [Shallow.stepBack, hd, if_true]
    have hk : s.kids x = [] := by simpa [hd] using hk
    constructor
    · simp only [Shallow.stepFwd, if_neg hd, travNbr_alive ha hv hx, ha.firstChild_get hv hx, hk]; rfl
    · simp only [Shallow.stepBack, if_neg hd, travNbr_alive ha hv hx, ha.lastChild hv hx, hk]; rfl
  down := by
    intro x d a post hx hl hk
    have hd : ¬ some d = mx := by simpa using hl
    have haa : s.alive a = true := hv.kid_alive (p := x) (by rw [hk]; simp)
    have hp : s.parent a = some x := hv.kid_parent (by rw [hk]; simp)
    constructor
    · simp only [Shallow.stepFwd, if_neg hd, travNbr_alive ha hv hx, ha.firstChild_get hv hx, hk]; rfl
    · simp only [Shallow.stepBack, travNbr_alive ha hv haa, ha.prevSibling hv haa, prev_first hv hk,
        ha.getParent_get hv haa, hp, expect_some, Shallow.depthPred]
  over := by
    intro x d a b pre post hx hk
    have haa : s.alive a = true := hv.kid_alive (p := x) (by rw [hk]; simp)
    have hab : s.alive b = true := hv.kid_alive (p := x) (by rw [hk]; simp)
    constructor
    · simp only [Shallow.stepFwd, travNbr_alive ha hv haa, ha.nextSibling_get hv haa, next_mid hv hk]
    · simp only [Shallow.stepBack, travNbr_alive ha hv hab, ha.prevSibling hv hab, prev_mid hv hk]
  up := by
    intro x d a pre hx hl hk
    have hd : ¬ some d = mx := by simpa using hl
    have haa : s.alive a = true := hv.kid_alive (p := x) (by rw [hk]; simp)
    have hp : s.parent a = some x := hv.kid_parent (by rw [hk]; simp)
    constructor
    · simp only [Shallow.stepFwd, travNbr_alive ha hv haa, ha.nextSibling_get hv haa, next_last hv hk,
        ha.getParent_get hv haa, hp, expect_some, Shallow.depthPred]
    · simp only [Shallow.stepBack, if_neg hd, travNbr_alive ha hv hx, ha.lastChild hv hx, hk]; simp

end alive

namespace Tree

mutual
theorem gev_events (d : Nat) : ∀ t : Tree Nat,
    gev (fun x _ => Ev.opn x) (fun x _ => Ev.cls x) (fun _ => false) d t = t.events
  | .node x ts => by simp [gev, events, gevL_events (d + 1) ts]
theorem gevL_events (d : Nat) : ∀ ts : List (Tree Nat),
    gevL (fun x _ => Ev.opn x) (fun x _ => Ev.cls x) (fun _ => false) d ts = eventsL ts
  | [] => rfl
  | t :: ts => by simp [gevL, eventsL, gev_events d t, gevL_events d ts]
end

mutual
theorem gev_devents (d : Nat) : ∀ t : Tree Nat,
    gev (fun x d => (Ev.opn x, d)) (fun x d => (Ev.cls x, d)) (fun d => decide (some d = none)) d t
      = t.devents d
  | .node x ts => by simp [gev, devents, ← gevL_devents (d + 1) ts]
theorem gevL_devents (d : Nat) : ∀ ts : List (Tree Nat),
    gevL (fun x d => (Ev.opn x, d)) (fun x d => (Ev.cls x, d)) (fun d => decide (some d = none)) d ts
      = deventsL d ts
  | [] => rfl
  | t :: ts => by simp only [gevL, deventsL, gev_devents d t, gevL_devents d ts]
end

mutual
theorem devents_depth {α : Type} : ∀ (t : Tree α) (d : Nat), ∀ e ∈ t.devents d, d ≤ e.2
  | .node x ts, d, e, he => by
    simp only [devents, List.mem_cons, List.mem_append, List.not_mem_nil, or_false] at he
    rcases he with rfl | he | rfl
    · exact Nat.le_refl _
    · exact Nat.le_of_succ_le (deventsL_depth ts (d + 1) e he)
    · exact Nat.le_refl _
theorem deventsL_depth {α : Type} : ∀ (ts : List (Tree α)) (d : Nat), ∀ e ∈ deventsL d ts, d ≤ e.2
  | [], _, _, he => by simp [deventsL] at he
  | t :: ts, d, e, he => by
    simp only [deventsL, List.mem_append] at he
    exact he.elim (devents_depth t d e) (deventsL_depth ts d e)
end

mutual
theorem gev_filter (m : Nat) : ∀ (t : Tree Nat) (d : Nat), d ≤ m →
    gev (fun x d => (Ev.opn x, d)) (fun x d => (Ev.cls x, d)) (fun d => decide (some d = some m)) d t
      = (t.devents d).filter (fun e => decide (e.2 ≤ m))
  | .node x ts, d, hd => by
    unfold gev devents
    by_cases e : d = m
    · subst e
      have : (deventsL (d + 1) ts).filter (fun e => decide (e.2 ≤ d)) = [] := by
        rw [List.filter_eq_nil_iff]
        intro e he
        have := deventsL_depth ts (d + 1) e he
        simp; omega
      simp [List.filter_append, this]
    · rw [gevL_filter m ts (d + 1) (by omega)]
      simp [List.filter_append, hd, e]
theorem gevL_filter (m : Nat) : ∀ (ts : List (Tree Nat)) (d : Nat), d ≤ m →
    gevL (fun x d => (Ev.opn x, d)) (fun x d => (Ev.cls x, d)) (fun d => decide (some d = some m)) d ts
      = (deventsL d ts).filter (fun e => decide (e.2 ≤ m))
  | [], _, _ => rfl
  | t :: ts, d, hd => by
    simp only [gevL, deventsL, List.filter_append, gev_filter m t d hd, gevL_filter m ts d hd]
end

mutual
theorem map_fst_devents {α : Type} : ∀ (t : Tree α) (d : Nat), (t.devents d).map (·.1) = t.events
  | .node x ts, d => by simp [devents, events, map_fst_deventsL ts (d + 1)]
theorem map_fst_deventsL {α : Type} : ∀ (ts : List (Tree α)) (d : Nat),
    (deventsL d ts).map (·.1) = eventsL ts
  | [], _ => rfl
  | t :: ts, d => by simp [deventsL, eventsL, map_fst_devents t d, map_fst_deventsL ts d]
end

theorem shallow_sublist {α : Type} (mx : Option Nat) (t : Tree α) :
    (t.shallow mx).Sublist (t.devents 0) := by
  unfold shallow; split
  · exact List.Sublist.refl _
  · exact List.filter_sublist

theorem devents_nodup {α : Type} {t : Tree α} (h : t.preorder.Nodup) (d : Nat) :
    (t.devents d).Nodup := by
  have h1 := events_nodup t h
  rw [← map_fst_devents t d] at h1
  exact List.Pairwise.of_map (fun e => e.1) (fun a b hne e => hne (congrArg Prod.fst e)) h1

theorem gev_shallow (mx : Option Nat) (t : Tree Nat) :
    gev (fun x d => (Ev.opn x, d)) (fun x d => (Ev.cls x, d)) (fun d => decide (some d = mx)) 0 t
      = t.shallow mx := by
  cases mx with
  | none => exact gev_devents 0 t
  | some m => exact gev_filter m t 0 (by omega)

theorem mem_shallow_node {α : Type} {mx : Option Nat} {t : Tree α} {e : Ev α × Nat}
    (h : e ∈ t.shallow mx) : e.1.node ∈ t.preorder := by
  have h1 := (shallow_sublist mx t).subset h
  exact node_mem_preorder (by rw [← map_fst_devents t 0]; exact List.mem_map_of_mem h1)

theorem ends_gev {ε : Type} (o c : Nat → Nat → ε) (lim : Nat → Bool) (d : Nat) (t : Tree Nat) :
    ends (gev o c lim d t) = some (o t.root d, c t.root d) := by
  unfold ends; rw [head?_gev, getLast?_gev]; rfl

end Tree

/-! ### The traversers -/

/-- Lists a double-ended traverser may still have to emit. -/
structure Walk {T ι : Type} (f : Forest T) (idOf : ι → Nat) (stepF stepB : ι → R (Option ι))
    (L : List ι) : Prop where
  nodup : L.Nodup
  chain : L.IsChain (StepRel stepF stepB)
  alive : ∀ i ∈ L, f.isAlive (idOf i) = true

namespace Walk
variable {T ι : Type} {f : Forest T} {idOf : ι → Nat} {stepF stepB : ι → R (Option ι)} {L : List ι}

theorem tail (w : Walk f idOf stepF stepB L) : Walk f idOf stepF stepB L.tail :=
  ⟨w.nodup.sublist (List.tail_sublist _), isChain_tail w.chain,
    fun i hi => w.alive i (List.mem_of_mem_tail hi)⟩

theorem dropLast (w : Walk f idOf stepF stepB L) : Walk f idOf stepF stepB L.dropLast :=
  ⟨w.nodup.sublist (List.dropLast_sublist _), isChain_dropLast w.chain,
    fun i hi => w.alive i (List.dropLast_subset _ hi)⟩

theorem deNext [DecidableEq ι] (w : Walk f idOf stepF stepB L) :
    Treena.deNext stepF (ends L) = .ok (L.head?, ends L.tail) :=
  deNext_ends w.nodup (w.chain.imp fun _ _ h => h.1)

theorem deNextBack [DecidableEq ι] (w : Walk f idOf stepF stepB L) :
    Treena.deNextBack stepB (ends L) = .ok (L.getLast?, ends L.dropLast) :=
  deNextBack_ends w.nodup (w.chain.imp fun _ _ h => h.2)

end Walk

theorem nodeAt_alive {T : Type} {f : Forest T} {x : Nat} (hx : f.isAlive x = true) :
    f.nodeAt x = .ok x := by
  unfold Forest.nodeAt Forest.node; simp [hx]

theorem emit_ok {T ι σ : Type} {f : Forest T} {idOf : ι → Nat} {o : Option ι} {st : σ}
    (h : ∀ i, o = some i → f.isAlive (idOf i) = true) :
    f.emit idOf (.ok (o, st)) = .ok (o, st) := by
  cases o with
  | none => rfl
  | some i => simp only [Forest.emit, nodeAt_alive (h i rfl)]

variable {T : Type} {f : Forest T}

theorem dft_walk (hm : Models f s) {t : Tree Nat} (ht : Tree.IsTree s.kids t)
    (hx : s.alive t.root = true) :
    Walk f Ev.node (Dft.stepFwd f.hier) (Dft.stepBack f.hier) t.events := by
  refine ⟨Tree.events_nodup t (Tree.preorder_nodup hm.valid t ht), ?_, ?_⟩
  · have := Tree.chain_gev hm.valid (dft_steps hm.agrees hm.valid) t 0 ht hx
    rwa [Tree.gev_events] at this
  · intro i hi
    rw [hm.isAlive]
    exact Tree.mem_alive hm.valid ht hx (Tree.node_mem_preorder hi)

theorem dftNext_walk {L : List (Ev Nat)}
    (w : Walk f Ev.node (Dft.stepFwd f.hier) (Dft.stepBack f.hier) L) :
    f.dftNext (ends L) = .ok (L.head?, ends L.tail) := by
  unfold Forest.dftNext Dft.next
  rw [w.deNext]
  exact emit_ok fun i hi => w.alive i (List.mem_of_mem_head? (by simpa using hi))

theorem dftNextBack_walk {L : List (Ev Nat)}
    (w : Walk f Ev.node (Dft.stepFwd f.hier) (Dft.stepBack f.hier) L) :
    f.dftNextBack (ends L) = .ok (L.getLast?, ends L.dropLast) := by
  unfold Forest.dftNextBack Dft.nextBack
  rw [w.deNextBack]
  exact emit_ok fun i hi => w.alive i (List.mem_of_getLast? hi)

theorem iterNew_ok {σ : Type} {x : Nat} {mk : Nat → Hier → R σ} (hx : f.isAlive x = true) :
    f.iterNew x mk = mk x f.hier := by
  unfold Forest.iterNew Forest.nodeOrPanic Forest.node; simp [hx]

theorem ends_events (t : Tree Nat) : ends t.events = some (.opn t.root, .cls t.root) := by
  rw [← Tree.gev_events 0 t, Tree.ends_gev]

theorem ends_shallow (mx : Option Nat) (t : Tree Nat) :
    ends (t.shallow mx) = some ((.opn t.root, 0), (.cls t.root, 0)) := by
  rw [← Tree.gev_shallow, Tree.ends_gev]

theorem dft_start (hm : Models f s) {t : Tree Nat} (hx : s.alive t.root = true) :
    f.depthFirstTraverse t.root = .ok (ends t.events) := by
  unfold Forest.depthFirstTraverse
  rw [iterNew_ok (by rw [hm.isAlive, hx]), ends_events]
  simp [Dft.withToplevel, hm.hierAlive, hx]

theorem dft_drive (hm : Models f s) {t : Tree Nat} (ht : Tree.IsTree s.kids t)
    (hx : s.alive t.root = true) (ds : List Dir) :
    drive f.dftNext f.dftNextBack (ends t.events) ds = .ok (dequeRun t.events ds) :=
  drive_deque (P := Walk f Ev.node (Dft.stepFwd f.hier) (Dft.stepBack f.hier)) (st := ends)
    (fun _ w => w.tail) (fun _ w => w.dropLast) (fun _ w => dftNext_walk w)
    (fun _ w => dftNextBack_walk w) ds _ (dft_walk hm ht hx)

/-! Shallow -/

theorem shallow_walk (hm : Models f s) {t : Tree Nat} (ht : Tree.IsTree s.kids t)
    (hx : s.alive t.root = true) (mx : Option Nat) :
    Walk f (fun i => i.1.node) (Shallow.stepFwd f.hier mx) (Shallow.stepBack f.hier mx)
      (t.shallow mx) := by
  refine ⟨?_, ?_, ?_⟩
  · exact (Tree.devents_nodup (Tree.preorder_nodup hm.valid t ht) 0).sublist (Tree.shallow_sublist mx t)
  · have := Tree.chain_gev hm.valid (shallow_steps hm.agrees hm.valid mx) t 0 ht hx
    rwa [Tree.gev_shallow] at this
  · intro i hi
    rw [hm.isAlive]
    exact Tree.mem_alive hm.valid ht hx (Tree.mem_shallow_node hi)

/-- State of the shallow traverser that still has to emit `L`. -/
def shallowSt (mx : Option Nat) (L : List (Ev Nat × Nat)) : Shallow.St :=
  { next := ends L, maxDepth := mx }

theorem shallow_next_walk {mx : Option Nat} {L : List (Ev Nat × Nat)}
    (w : Walk f (fun i => i.1.node) (Shallow.stepFwd f.hier mx) (Shallow.stepBack f.hier mx) L) :
    Shallow.next f.hier (shallowSt mx L) = .ok (L.head?, shallowSt mx L.tail) := by
  simp only [Shallow.next, shallowSt, w.deNext]

theorem shallowNext_walk {mx : Option Nat} {L : List (Ev Nat × Nat)}
    (w : Walk f (fun i => i.1.node) (Shallow.stepFwd f.hier mx) (Shallow.stepBack f.hier mx) L) :
    f.shallowNext (shallowSt mx L) = .ok (L.head?, shallowSt mx L.tail) := by
  unfold Forest.shallowNext
  rw [shallow_next_walk w]
  exact emit_ok fun i hi => w.alive i (List.mem_of_mem_head? (by simpa using hi))

theorem shallowNextBack_walk {mx : Option Nat} {L : List (Ev Nat × Nat)}
    (w : Walk f (fun i => i.1.node) (Shallow.stepFwd f.hier mx) (Shallow.stepBack f.hier mx) L) :
    f.shallowNextBack (shallowSt mx L) = .ok (L.getLast?, shallowSt mx L.dropLast) := by
  unfold Forest.shallowNextBack
  simp only [Shallow.nextBack, shallowSt, w.deNextBack]
  exact emit_ok fun i hi => w.alive i (List.mem_of_getLast? hi)

theorem shallow_start (um : Nat) (hm : Models f s) {t : Tree Nat} (hx : s.alive t.root = true)
    (md : Option Nat) :
    Forest.shallowDepthFirstTraverse um f t.root md =
      .ok (shallowSt (Shallow.collapseMax um md) (t.shallow (Shallow.collapseMax um md))) := by
  unfold Forest.shallowDepthFirstTraverse
  rw [iterNew_ok (by rw [hm.isAlive, hx]), shallowSt, ends_shallow]
  simp [Shallow.withToplevelAndMaxDepth, hm.hierAlive, hx]

theorem shallow_drive (hm : Models f s) {t : Tree Nat} (ht : Tree.IsTree s.kids t)
    (hx : s.alive t.root = true) (mx : Option Nat) (ds : List Dir) :
    drive f.shallowNext f.shallowNextBack (shallowSt mx (t.shallow mx)) ds =
      .ok (dequeRun (t.shallow mx) ds) :=
  drive_deque
    (P := Walk f (fun i => i.1.node) (Shallow.stepFwd f.hier mx) (Shallow.stepBack f.hier mx))
    (st := shallowSt mx)
    (fun _ w => w.tail) (fun _ w => w.dropLast) (fun _ w => shallowNext_walk w)
    (fun _ w => shallowNextBack_walk w) ds _ (shallow_walk hm ht hx mx)

end Treena
