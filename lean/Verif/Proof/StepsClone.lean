import Verif.Proof.StepsDetach
/-! Step counts of the copies. -/

set_option autoImplicit false

namespace Treena.Steps
open Hier Shape

theorem UpPath.congr_on {par par' : Nat → Option Nat} {x : Nat} {l : List Nat} (h : UpPath par x l)
    (he : ∀ y ∈ l, par' y = par y) : UpPath par' x l := by
  induction h with
  | root h0 => exact .root (by rw [he _ (by simp), h0])
  | step h0 _ ih => exact .step (by rw [he _ (by simp), h0]) (ih fun y hy => he y (by simp [hy]))

theorem Erases.pins_ok {σ α : Type} {mc : M (σ × Nat) α} {m : M σ α} (he : Erases mc m) {s st : σ} {a : α} {k : Nat}
    (h : ∀ n, mc (s, n) = .ok a (st, n + k)) : Counts mc m s k ∧ m s = .ok a st := by
  obtain ⟨k', hk⟩ := he s
  have h0 := (hk 0).symm.trans (h 0)
  cases hr : m s with
  | ok b s' =>
    simp [hr, Res.withCount] at h0
    obtain ⟨rfl, rfl, rfl⟩ := h0
    exact ⟨hk, rfl⟩
  | fail e s' => simp [hr, Res.withCount] at h0

theorem Erases.pins_fail {σ α : Type} {mc : M (σ × Nat) α} {m : M σ α} (he : Erases mc m) {s st : σ} {e : Fail} {k : Nat}
    (h : ∀ n, mc (s, n) = .fail e (st, n + k)) : Counts mc m s k ∧ m s = .fail e st := by
  obtain ⟨k', hk⟩ := he s
  have h0 := (hk 0).symm.trans (h 0)
  cases hr : m s with
  | ok b s' => simp [hr, Res.withCount] at h0
  | fail e' s' =>
    simp [hr, Res.withCount] at h0
    obtain ⟨rfl, rfl, rfl⟩ := h0
    exact ⟨hk, rfl⟩

variable {T S τ : Type}

/-- One turn of the counted copy loop. -/
def cloneMid (cap : Nat) (cl : T → Option T) (src : Forest.CloneSrc T τ) (hook : Forest.MapHook S) (I : Nat)
    (i F : Nat) (cur : Nat) (tr : τ) : M ((Forest T × S) × Nat) (Nat × τ) := do
  let (o, cur', tr') ← onForest (cloneNextNode cap cl src i cur tr)
  match o with
  | none => pure (cur', tr')
  | some srcId => do
    free (Forest.callMap hook srcId cur')
    cloneLoop cap cl src hook I F cur' tr'

theorem cloneLoop_succ (cap : Nat) (cl : T → Option T) (src : Forest.CloneSrc T τ) (hook : Forest.MapHook S)
    (I F cur : Nat) (tr : τ) (st : Forest T × S) (n : Nat) :
    cloneLoop cap cl src hook I (F + 1) cur tr (st, n) = cloneMid cap cl src hook I I F cur tr (st, n + 1) := rfl

theorem onForest_ok {α : Type} {m : M (Forest T × Nat) α} {g g' : Forest T} {a : α} {σ : S} {n n' : Nat}
    (h : m (g, n) = .ok a (g', n')) : onForest m ((g, σ), n) = .ok a ((g', σ), n') := by
  simp [onForest, M.zoom, h]

theorem onForest_fail {α : Type} {m : M (Forest T × Nat) α} {g g' : Forest T} {e : Fail} {σ : S} {n n' : Nat}
    (h : m (g, n) = .fail e (g', n')) : onForest m ((g, σ), n) = .fail e ((g', σ), n') := by
  simp [onForest, M.zoom, h]

section loop
variable {f : Forest T} {s : Shape} {cap : Nat} {cl : T → Option T} {src : Forest.CloneSrc T τ}
  {hook : Forest.MapHook S} {I : Nat} {trOf : List (Ev Nat) → τ} {E : List (Ev Nat)} {dat : Nat → Option T}

section
variable (hsrc : SrcOk src (fun g => ∃ s', Grown f s g s') trOf E dat)
include hsrc

theorem mid_close {g : Forest T} {s' : Shape} (hg : Grown f s g s') {cur y : Nat} (hcur : s'.alive cur = true)
    {done L : List (Ev Nat)} (hE : E = done ++ .cls y :: L) (i F : Nat) (σ : S) (n : Nat) :
    cloneMid cap cl src hook I (i + 1) F cur (trOf (.cls y :: L)) ((g, σ), n) =
      match s'.parent cur with
      | some p => cloneMid cap cl src hook I i F p (trOf L) ((g, σ), n + 1)
      | none => .ok (cur, trOf L) ((g, σ), n + 1) := by
  have hn := hsrc.next g ⟨s', hg⟩ done _ L hE
  have hl := (hg.models.agrees.live_iff hg.models.valid cur).2 hcur
  have hp : (g.hier.get cur).getParent = .ok (s'.parent cur) :=
    hg.models.agrees.getParent_get hg.models.valid hcur
  have hnb : ∀ msg, Forest.onHier (T := T) (Hier.nbrOf cur msg) g = .ok (g.hier.get cur) g := fun msg =>
    onHier_ok (nbrOf_live hl msg)
  cases hpp : s'.parent cur with
  | some p =>
    have : cloneNextNode cap cl src (i + 1) cur (trOf (.cls y :: L)) (g, n) =
        cloneNextNode cap cl src i p (trOf L) (g, n + 1) := by
      rw [cloneNextNode]
      simp only [M.run_bind, tick, M.modify, free, M.zoom, M.read, hn, hnb, hp, hpp]
    have this' : onForest (cloneNextNode cap cl src (i + 1) cur (trOf (.cls y :: L))) ((g, σ), n) =
        onForest (cloneNextNode cap cl src i p (trOf L)) ((g, σ), n + 1) := by
      simp only [onForest, M.zoom, this]
    unfold cloneMid
    simp only [M.run_bind, this']
  | none =>
    have : cloneNextNode cap cl src (i + 1) cur (trOf (.cls y :: L)) (g, n) =
        .ok (none, cur, trOf L) (g, n + 1) := by
      rw [cloneNextNode]
      simp only [M.run_bind, tick, M.modify, free, M.zoom, M.read, hn, hnb, hp, hpp, M.run_pure]
    unfold cloneMid
    simp only [M.run_bind, onForest_ok this, M.run_pure]

theorem mid_open {g : Forest T} {s' : Shape} (hg : Grown f s g s') {cur y : Nat} (hcs : s.size ≤ cur)
    (hcur : s'.alive cur = true) {l : List Nat} (hpath : UpPath s'.parent cur l)
    {done L : List (Ev Nat)} (hE : E = done ++ .opn y :: L) (i F : Nat) (σ : S) :
    (∃ e st k, k ≤ l.length + 5 ∧
      ∀ n, cloneMid cap cl src hook I (i + 1) F cur (trOf (.opn y :: L)) ((g, σ), n) = .fail e (st, n + k)) ∨
    (s'.size < cap ∧ ∃ g' σ', Grown f s g' (s'.addChild' cur) ∧
      ∀ n, cloneMid cap cl src hook I (i + 1) F cur (trOf (.opn y :: L)) ((g, σ), n) =
        cloneLoop cap cl src hook I F s'.size (trOf L) ((g', σ'), n + (l.length + 5))) := by
  have hn := hsrc.next g ⟨s', hg⟩ done _ L hE
  obtain ⟨d, hd, hd'⟩ := hsrc.data g ⟨s', hg⟩ y (by rw [hE]; simp)
  cases hcl : cl d with
  | none =>
    left
    refine ⟨clonePanic, (g, σ), 1, by omega, fun n => ?_⟩
    have hcd : Forest.clonedData cl (src.data g) y = .error clonePanic := by
      simp [Forest.clonedData, hd', hcl, clonePanic]
    have : cloneNextNode cap cl src (i + 1) cur (trOf (.opn y :: L)) (g, n) = .fail clonePanic (g, n + 1) := by
      rw [cloneNextNode]
      simp only [M.run_bind, tick, M.modify, free, M.zoom, M.read, hn, hcd]
    unfold cloneMid
    simp only [M.run_bind, onForest_fail this]
  | some d' =>
  have hcd : Forest.clonedData cl (src.data g) y = .ok d' := by
    simp [Forest.clonedData, hd', hcl]
  by_cases hc : s'.size < cap
  · obtain ⟨g', h1, h2, h3⟩ := hg.addChild hcs hcur hc d'
    have hcnt := createInsert_counts hg.models hc d' (dest := .lastChildOf cur) (P := cur) hcur rfl hpath
    have hnn : ∀ n, cloneNextNode cap cl src (i + 1) cur (trOf (.opn y :: L)) (g, n) =
        .ok (some y, s'.size, trOf L) (g', n + (l.length + 5)) := by
      intro n
      have := hcnt (n + 1)
      rw [h1] at this
      rw [cloneNextNode]
      simp only [M.run_bind, tick, M.modify, free, M.zoom, M.read, hn, hcd, this, Res.withCount, M.run_pure]
      congr 2; omega
    cases hh : hook σ y s'.size with
    | error σ' =>
      left
      refine ⟨.panic "add_mapping panicked", (g', σ'), l.length + 5, le_refl _, fun n => ?_⟩
      unfold cloneMid
      simp only [M.run_bind, onForest_ok (hnn n), free, M.zoom, Forest.callMap, hh]
    | ok σ' =>
      right
      refine ⟨hc, g', σ', h2, fun n => ?_⟩
      unfold cloneMid
      simp only [M.run_bind, onForest_ok (hnn n), free, M.zoom, Forest.callMap, hh]
  · left
    refine ⟨overflow, (g, σ), 2, by omega, fun n => ?_⟩
    have hf1 := createInsert_full hg.models (by omega : cap ≤ s'.size) d' (dest := .lastChildOf cur) hcur
    have hcnt : Counts (createInsertMomo cap d' (.lastChildOf cur)) (Forest.createInsertMomo cap d' (.lastChildOf cur)) g 1 := by
      have hval : g.hier.isValid (InsertAs.lastChildOf cur).toAnchor = true := by
        have h1 := hg.models.valid.alive_lt _ hcur
        rw [← hg.models.agrees.1] at h1
        unfold isValid; exact decide_eq_true h1
      refine Counts.tick (k := 0) (Counts.free_bind (a := true) (s' := g) (by simp [M.read, hval]) ?_)
      exact (Counts.free _ _).bind_fail (Treena.onHier_fail (hier_createRoot_full hg.models.agrees (by omega)))
    have h2 := hcnt (n + 1)
    rw [hf1] at h2
    have : cloneNextNode cap cl src (i + 1) cur (trOf (.opn y :: L)) (g, n) = .fail overflow (g, n + 2) := by
      rw [cloneNextNode]
      simp only [M.run_bind, tick, M.modify, free, M.zoom, M.read, hn, hcd, h2, Res.withCount]
    unfold cloneMid
    simp only [M.run_bind, onForest_fail this]

end

/-- After `K` steps the loop has failed, or it has done its part in exactly `K` steps. -/
def Pays (K : Nat) (run : Nat → Res ((Forest T × S) × Nat) (Nat × τ)) (Q : (Nat → Res ((Forest T × S) × Nat) (Nat × τ)) → Prop) :
    Prop :=
  (∃ e st k, k ≤ K ∧ ∀ n, run n = .fail e (st, n + k)) ∨ ∃ run', Q run' ∧ ∀ n, run n = run' (n + K)

mutual
theorem clone_tree (hsrc : SrcOk src (fun g => ∃ s', Grown f s g s') trOf E dat) :
    ∀ (t : Tree Nat) (g : Forest T) (s' : Shape) (p i F : Nat) (l : List Nat) (σ : S) (done L : List (Ev Nat)),
    E = done ++ t.events ++ L → Grown f s g s' → s.size ≤ p → s'.alive p = true → UpPath s'.parent p l →
    (t.events ++ L).length < I → (t.events ++ L).length < i → cap < s'.size + F →
    Pays (t.depthSum l.length + 7 * t.count) (fun n => cloneMid cap cl src hook I i F p (trOf (t.events ++ L)) ((g, σ), n))
      (fun run' => ∃ g' σ' i' F', Grown f s g' (Tree.graft s' p t) ∧ L.length < i' ∧ cap < (Tree.graft s' p t).size + F' ∧
        run' = fun n => cloneMid cap cl src hook I i' F' p (trOf L) ((g', σ'), n))
  | .node y ts, g, s', p, i, F, l, σ, done, L, hE, hg, hp, hpa, hpath, hI, hi, hF => by
    have hE1 : E = done ++ .opn y :: (Tree.eventsL ts ++ .cls y :: L) := by
      rw [hE]; simp [Tree.events]
    have hev : (Tree.node y ts).events ++ L = .opn y :: (Tree.eventsL ts ++ .cls y :: L) := by
      simp [Tree.events]
    rw [hev] at hI hi ⊢
    simp only [List.length_cons] at hI hi
    obtain ⟨i, rfl⟩ : ∃ k, i = k + 1 := ⟨i - 1, by omega⟩
    simp only [Tree.depthSum, Tree.count]
    rcases mid_open (cap := cap) (cl := cl) (hook := hook) (I := I) hsrc hg hp hpa hpath hE1 i F σ with
      ⟨e, st, k, hk, hrun⟩ | ⟨hc, g1, σ1, hg1, hrun⟩
    · exact .inl ⟨e, st, k, by omega, hrun⟩
    obtain ⟨F, rfl⟩ : ∃ k, F = k + 1 := ⟨F - 1, by omega⟩
    have hsz1 : (s'.addChild' p).size = s'.size + 1 := rfl
    have hal1 : (s'.addChild' p).alive s'.size = true := by simp [Shape.addChild', upd]
    have hv' := hg.models.valid
    have hl : ∀ z ∈ l, z < s'.size := fun z hz => hv'.alive_lt z ((hpath.mem_iff.1 hz).alive hv' hpa)
    have hpath1 : UpPath (s'.addChild' p).parent s'.size (s'.size :: l) := by
      refine .step (p := p) (by simp [Shape.addChild', upd]) (UpPath.congr_on hpath ?_)
      intro z hz
      have := hl z hz
      simp only [Shape.addChild', upd]; rw [if_neg (by omega)]
    have h2 := clone_forest hsrc ts g1 (s'.addChild' p) s'.size I F (s'.size :: l) σ1 (done ++ [.opn y])
      (.cls y :: L) (by rw [hE1]; simp) hg1 hg.size hal1 hpath1 (by omega) (by omega) (by rw [hsz1]; omega)
    rcases h2 with ⟨e, st, k, hk, hrun2⟩ | ⟨run', ⟨g2, σ2, i2, F2, hg2, hi2, hF2, rfl⟩, hrun2⟩
    · refine .inl ⟨e, st, k + (l.length + 6), by simp at hk; omega, fun n => ?_⟩
      dsimp only at hrun2 ⊢
      rw [hrun n, cloneLoop_succ, hrun2]
      congr 2; omega
    · right
      have hgs := Tree.graftL_spec ts (s'.addChild' p) s'.size hg1.fresh (by rw [hsz1]; omega)
      have hpar : (Tree.graftL (s'.addChild' p) s'.size ts).parent s'.size = some p := by
        rw [hgs.2.2.1.parent _ (by rw [hsz1]; omega)]; simp [Shape.addChild', upd]
      have hal2 : (Tree.graftL (s'.addChild' p) s'.size ts).alive s'.size = true := by
        rw [hgs.2.2.1.alive _ (by rw [hsz1]; omega)]; exact hal1
      simp only [List.length_cons] at hi2
      obtain ⟨i2, rfl⟩ : ∃ k, i2 = k + 1 := ⟨i2 - 1, by omega⟩
      refine ⟨_, ⟨g2, σ2, i2, F2, hg2, by omega, hF2, rfl⟩, fun n => ?_⟩
      have hcl := mid_close (cap := cap) (cl := cl) (hook := hook) (I := I) hsrc hg2 hal2
        (done := done ++ .opn y :: Tree.eventsL ts) (y := y) (L := L) (by rw [hE1]; simp) i2 F2 σ2
      dsimp only at hrun2 ⊢
      rw [hrun n, cloneLoop_succ, hrun2, hcl, hpar]
      dsimp only
      congr 2
      simp only [List.length_cons]; omega
theorem clone_forest (hsrc : SrcOk src (fun g => ∃ s', Grown f s g s') trOf E dat) :
    ∀ (ts : List (Tree Nat)) (g : Forest T) (s' : Shape) (p i F : Nat) (l : List Nat) (σ : S) (done L : List (Ev Nat)),
    E = done ++ Tree.eventsL ts ++ L → Grown f s g s' → s.size ≤ p → s'.alive p = true → UpPath s'.parent p l →
    (Tree.eventsL ts ++ L).length < I → (Tree.eventsL ts ++ L).length < i → cap < s'.size + F →
    Pays (Tree.depthSumL l.length ts + 7 * Tree.countL ts)
      (fun n => cloneMid cap cl src hook I i F p (trOf (Tree.eventsL ts ++ L)) ((g, σ), n))
      (fun run' => ∃ g' σ' i' F', Grown f s g' (Tree.graftL s' p ts) ∧ L.length < i' ∧ cap < (Tree.graftL s' p ts).size + F' ∧
        run' = fun n => cloneMid cap cl src hook I i' F' p (trOf L) ((g', σ'), n))
  | [], g, s', p, i, F, l, σ, done, L, hE, hg, hp, hpa, hpath, hI, hi, hF =>
    .inr ⟨_, ⟨g, σ, i, F, hg, by simpa [Tree.eventsL] using hi, hF, rfl⟩, fun n => rfl⟩
  | t :: ts, g, s', p, i, F, l, σ, done, L, hE, hg, hp, hpa, hpath, hI, hi, hF => by
    have hev : Tree.eventsL (t :: ts) ++ L = t.events ++ (Tree.eventsL ts ++ L) := by simp [Tree.eventsL]
    rw [hev] at hI hi ⊢
    simp only [Tree.depthSumL, Tree.countL]
    have h1 := clone_tree hsrc t g s' p i F l σ done (Tree.eventsL ts ++ L)
      (by rw [hE]; simp [Tree.eventsL]) hg hp hpa hpath hI hi hF
    have hplt : p < s'.size := hg.models.valid.alive_lt p hpa
    have hgs := Tree.graft_spec t s' p hg.fresh hplt
    have hv' := hg.models.valid
    have hl : ∀ z ∈ l, z < s'.size := fun z hz => hv'.alive_lt z ((hpath.mem_iff.1 hz).alive hv' hpa)
    rcases h1 with ⟨e, st, k, hk, hrun⟩ | ⟨run', ⟨g1, σ1, i1, F1, hg1, hi1, hF1, rfl⟩, hrun⟩
    · exact .inl ⟨e, st, k, by omega, hrun⟩
    · have h2 := clone_forest hsrc ts g1 (Tree.graft s' p t) p i1 F1 l σ1 (done ++ t.events) L
        (by rw [hE]; simp [Tree.eventsL]) hg1 hp (by rw [hgs.2.2.1.alive p hplt]; exact hpa)
        (UpPath.congr_on hpath fun z hz => hgs.2.2.1.parent z (hl z hz))
        (by simp only [List.length_append] at hI ⊢; omega) hi1 hF1
      rcases h2 with ⟨e, st, k, hk, hrun2⟩ | ⟨run', ⟨g2, σ2, i2, F2, hg2, hi2, hF2, rfl⟩, hrun2⟩
      · refine .inl ⟨e, st, k + (t.depthSum l.length + 7 * t.count), by omega, fun n => ?_⟩
        dsimp only at hrun hrun2 ⊢
        rw [hrun, hrun2]; congr 2; omega
      · refine .inr ⟨_, ⟨g2, σ2, i2, F2, hg2, hi2, hF2, rfl⟩, fun n => ?_⟩
        dsimp only at hrun hrun2 ⊢
        rw [hrun, hrun2]; congr 2; omega
end
end loop

/-- The copy loop of a tree whose root has just been created. -/
theorem cloneLoop_counts {f : Forest T} {s : Shape} {cap : Nat} {cl : T → Option T} {src : Forest.CloneSrc T τ}
    {hook : Forest.MapHook S} {trOf : List (Ev Nat) → τ} {dat : Nat → Option T} {t : Tree Nat} (hv : s.Valid)
    (hsrc : SrcOk src (fun g => ∃ s', Grown f s g s') trOf t.events dat)
    {g : Forest T} (hg : Grown f s g s.addRoot) {I : Nat} (hI : t.events.length < I) (σ : S) :
    (∃ e st k, k ≤ t.depthSum 0 + 7 * t.count - 5 ∧
      ∀ n, cloneLoop cap cl src hook I (cap + 1) s.size (trOf t.events.tail) ((g, σ), n) = .fail e (st, n + k)) ∨
    ∃ st, ∀ n, cloneLoop cap cl src hook I (cap + 1) s.size (trOf t.events.tail) ((g, σ), n) =
      .ok (s.size, trOf []) (st, n + (t.depthSum 0 + 7 * t.count - 5)) := by
  cases t with
  | node y ts =>
  have hev : (Tree.node y ts).events.tail = Tree.eventsL ts ++ [.cls y] := by simp [Tree.events]
  have hEe : (Tree.node y ts).events = [.opn y] ++ Tree.eventsL ts ++ [.cls y] := by simp [Tree.events]
  have hlenE : (Tree.node y ts).events.length = (Tree.eventsL ts ++ [Ev.cls y]).length + 1 := by
    rw [hEe]; simp
  have hsz : s.addRoot.size = s.size + 1 := rfl
  have hal : s.addRoot.alive s.size = true := addRoot_alive_self s
  have hcost : (Tree.node y ts).depthSum 0 + 7 * (Tree.node y ts).count - 5 =
      Tree.depthSumL 1 ts + 7 * Tree.countL ts + 2 := by
    simp only [Tree.depthSum, Tree.count, Nat.zero_add]; omega
  rw [hev, hcost]
  have h2 := clone_forest (cap := cap) (cl := cl) (hook := hook) (I := I) hsrc ts g s.addRoot
    s.size I cap [s.size] σ [.opn y] [.cls y] hEe hg (Nat.le_refl _) hal (.root (hv.dead_parent hv.dead_size))
    (by omega) (by omega) (by rw [hsz]; omega)
  rcases h2 with ⟨e, st, k, hk, hrun⟩ | ⟨run', ⟨g2, σ2, i2, F2, hg2, hi2, hF2, rfl⟩, hrun⟩
  · refine .inl ⟨e, st, k + 1, by simp at hk; omega, fun n => ?_⟩
    dsimp only at hrun
    rw [cloneLoop_succ, hrun]; congr 2; omega
  · have hgs := Tree.graftL_spec ts s.addRoot s.size hg.models.valid.fresh (by rw [hsz]; omega)
    simp only [List.length_cons, List.length_nil] at hi2
    obtain ⟨i2, rfl⟩ : ∃ k, i2 = k + 1 := ⟨i2 - 1, by omega⟩
    have hal2 : (Tree.graftL s.addRoot s.size ts).alive s.size = true := by
      rw [hgs.2.2.1.alive _ (by rw [hsz]; omega)]; exact hal
    have hpar : (Tree.graftL s.addRoot s.size ts).parent s.size = none := by
      rw [hgs.2.2.1.parent _ (by rw [hsz]; omega)]
      exact hv.dead_parent hv.dead_size
    have hcl := mid_close (cap := cap) (cl := cl) (hook := hook) (I := I) hsrc hg2 hal2
      (done := .opn y :: Tree.eventsL ts) (y := y) (L := []) (by rw [hEe]; simp) i2 F2 σ2
    refine .inr ⟨(g2, σ2), fun n => ?_⟩
    dsimp only at hrun
    rw [cloneLoop_succ, hrun, hcl, hpar]
    dsimp only
    congr 2
    simp only [List.length_singleton]; omega

theorem depthSum_zero_count (t : Tree Nat) : 7 ≤ t.depthSum 0 + 7 * t.count := by
  cases t; simp only [Tree.count]; omega

/-- `clone_local_tree`. -/
theorem cloneLocal_counts {f : Forest T} {s : Shape} {cap : Nat} {cl : T → Option T} {hook : Forest.MapHook S}
    {t : Tree Nat} (hm : Models f s) (ht : Tree.IsTree s.kids t) (hx : s.alive t.root = true) (σ : S) :
    ∃ k, k ≤ t.depthSum 0 + 7 * t.count - 4 ∧
      Counts (cloneLocalTreeWithIdMapping cap cl hook t.root) (Forest.cloneLocalTreeWithIdMapping cap cl hook t.root) (f, σ) k ∧
      ∀ r st, Forest.cloneLocalTreeWithIdMapping cap cl hook t.root (f, σ) = .ok r st → k = t.depthSum 0 + 7 * t.count - 4 := by
  have hpos := depthSum_zero_count t
  have he := cloneLocal_erases (S := S) cap cl hook t.root
  obtain ⟨d, hd⟩ := data_some hm hx
  have hsrc := local_src hm ht hx
  have early : ∀ e st, (∀ n, cloneLocalTreeWithIdMapping cap cl hook t.root ((f, σ), n) = .fail e (st, n + 1)) →
      ∃ k, k ≤ t.depthSum 0 + 7 * t.count - 4 ∧ Counts (cloneLocalTreeWithIdMapping cap cl hook t.root) (Forest.cloneLocalTreeWithIdMapping cap cl hook t.root) (f, σ) k ∧
      ∀ r st, Forest.cloneLocalTreeWithIdMapping cap cl hook t.root (f, σ) = .ok r st → k = t.depthSum 0 + 7 * t.count - 4 :=
    fun e st h => by
      have := Erases.pins_fail he h
      exact ⟨1, by omega, this.1, fun r st' hr => by rw [this.2] at hr; cases hr⟩
  cases hcl : cl d with
  | none =>
    refine early clonePanic (f, σ) fun n => ?_
    unfold cloneLocalTreeWithIdMapping
    simp only [M.run_bind, tick, M.modify, free, M.zoom, M.read, hd, expect_some, hcl, expect_none]; rfl
  | some d' =>
  by_cases hcap : s.size < cap
  swap
  · refine early overflow (f, σ) fun n => ?_
    have := Treena.onForest_fail (σ := σ) (createRoot_full hm (by omega : cap ≤ s.size) d')
    unfold cloneLocalTreeWithIdMapping
    simp only [M.run_bind, tick, M.modify, free, M.zoom, M.read, hd, expect_some, hcl, this]; rfl
  obtain ⟨g0, hr, hg0, hd0⟩ := grown_addRoot hm hcap d'
  have hr' := Treena.onForest_run (σ := σ) hr
  cases hh : hook σ t.root s.size with
  | error σ' =>
    refine early (.panic "add_mapping panicked") (g0, σ') fun n => ?_
    unfold cloneLocalTreeWithIdMapping
    simp only [M.run_bind, tick, M.modify, free, M.zoom, M.read, hd, expect_some, hcl, hr', Forest.callMap, hh]
  | ok σ1 =>
    have hal : g0.hier.isAlive t.root = true := by
      rw [hg0.models.hierAlive]; exact addRoot_alive_of hx
    have hnext := hsrc.next g0 ⟨_, hg0⟩ [] (.opn t.root) t.events.tail (events_cons t)
    simp only [Forest.localSrc, List.head?_cons] at hnext
    have hI : t.events.length < Forest.cloneFuel cap cap := by
      have h2 := Tree.count_le_size hm.valid ht hx
      rw [Tree.length_events]; unfold Forest.cloneFuel; nlinarith
    rcases cloneLoop_counts (cap := cap) (cl := cl) (hook := hook) hm.valid hsrc hg0 hI σ1 with
      ⟨e, st, k, hk, hrun⟩ | ⟨st, hrun⟩
    · have : ∀ n, cloneLocalTreeWithIdMapping cap cl hook t.root ((f, σ), n) = .fail e (st, n + (k + 1)) := by
        intro n
        have := hrun (n + 1)
        unfold cloneLocalTreeWithIdMapping
        simp only [M.run_bind, tick, M.modify, free, M.zoom, M.read, hd, expect_some, hcl, hr', Forest.callMap, hh, Safe.new,
          hal, Bool.not_true, Bool.false_eq_true, if_false, hnext, this]
        congr 2; omega
      have := Erases.pins_fail he this
      exact ⟨k + 1, by omega, this.1, fun r st' hr => by rw [this.2] at hr; cases hr⟩
    · have : ∀ n, cloneLocalTreeWithIdMapping cap cl hook t.root ((f, σ), n) =
          .ok s.size (st, n + (t.depthSum 0 + 7 * t.count - 4)) := by
        intro n
        have := hrun (n + 1)
        unfold cloneLocalTreeWithIdMapping
        simp only [M.run_bind, tick, M.modify, free, M.zoom, M.read, hd, expect_some, hcl, hr', Forest.callMap, hh, Safe.new,
          hal, Bool.not_true, Bool.false_eq_true, if_false, hnext, this, ne_eq, not_true, M.run_pure]
        congr 2; omega
      have := Erases.pins_ok he this
      exact ⟨_, le_refl _, this.1, fun r st' hr => rfl⟩

/-- `clone_foreign_tree`. -/
theorem cloneForeign_counts {f fs : Forest T} {s ss : Shape} {cap : Nat} {cl : T → Option T} {hook : Forest.MapHook S}
    {t : Tree Nat} (hm : Models f s) (hms : Models fs ss) (ht : Tree.IsTree ss.kids t) (hx : ss.alive t.root = true) (σ : S) :
    ∃ k, k ≤ t.depthSum 0 + 7 * t.count - 4 ∧
      Counts (cloneForeignTreeWithIdMapping cap cl hook fs t.root) (Forest.cloneForeignTreeWithIdMapping cap cl hook fs t.root) (f, σ) k ∧
      ∀ r st, Forest.cloneForeignTreeWithIdMapping cap cl hook fs t.root (f, σ) = .ok r st → k = t.depthSum 0 + 7 * t.count - 4 := by
  have hpos := depthSum_zero_count t
  have he := cloneForeign_erases (S := S) cap cl hook fs t.root
  obtain ⟨d, hd⟩ := data_some hms hx
  have hsrc := foreign_src (f := f) (s := s) hms ht hx
  have early : ∀ e st, (∀ n, cloneForeignTreeWithIdMapping cap cl hook fs t.root ((f, σ), n) = .fail e (st, n + 1)) →
      ∃ k, k ≤ t.depthSum 0 + 7 * t.count - 4 ∧ Counts (cloneForeignTreeWithIdMapping cap cl hook fs t.root) (Forest.cloneForeignTreeWithIdMapping cap cl hook fs t.root) (f, σ) k ∧
      ∀ r st, Forest.cloneForeignTreeWithIdMapping cap cl hook fs t.root (f, σ) = .ok r st → k = t.depthSum 0 + 7 * t.count - 4 :=
    fun e st h => by
      have := Erases.pins_fail he h
      exact ⟨1, by omega, this.1, fun r st' hr => by rw [this.2] at hr; cases hr⟩
  cases hcl : cl d with
  | none =>
    refine early clonePanic (f, σ) fun n => ?_
    unfold cloneForeignTreeWithIdMapping
    simp only [M.run_bind, tick, M.modify, free, M.zoom, M.read, hd, expect_some, hcl, expect_none]; rfl
  | some d' =>
  by_cases hcap : s.size < cap
  swap
  · refine early overflow (f, σ) fun n => ?_
    have := Treena.onForest_fail (σ := σ) (createRoot_full hm (by omega : cap ≤ s.size) d')
    unfold cloneForeignTreeWithIdMapping
    simp only [M.run_bind, tick, M.modify, free, M.zoom, M.read, hd, expect_some, hcl, this]; rfl
  obtain ⟨g0, hr, hg0, hd0⟩ := grown_addRoot hm hcap d'
  have hr' := Treena.onForest_run (σ := σ) hr
  cases hh : hook σ t.root s.size with
  | error σ' =>
    refine early (.panic "add_mapping panicked") (g0, σ') fun n => ?_
    unfold cloneForeignTreeWithIdMapping
    simp only [M.run_bind, tick, M.modify, free, M.zoom, M.read, hd, expect_some, hcl, hr', Forest.callMap, hh]
  | ok σ1 =>
    have hal : fs.hier.isAlive t.root = true := by rw [hms.hierAlive]; exact hx
    have hnext := hsrc.next g0 ⟨_, hg0⟩ [] (.opn t.root) t.events.tail (events_cons t)
    have hst : ends (Ev.opn t.root :: t.events.tail) = some (.opn t.root, .cls t.root) := by
      rw [← events_cons, ends_events]
    simp only [Forest.foreignSrc, hst] at hnext
    have hI : t.events.length < Forest.cloneFuel cap fs.hier.nbrs.length := by
      have h2 := Tree.count_le_size hms.valid ht hx
      rw [Tree.length_events]; unfold Forest.cloneFuel; rw [hms.agrees.1]; nlinarith
    rcases cloneLoop_counts (cap := cap) (cl := cl) (hook := hook) hm.valid hsrc hg0 hI σ1 with
      ⟨e, st, k, hk, hrun⟩ | ⟨st, hrun⟩
    · have : ∀ n, cloneForeignTreeWithIdMapping cap cl hook fs t.root ((f, σ), n) = .fail e (st, n + (k + 1)) := by
        intro n
        have := hrun (n + 1)
        unfold cloneForeignTreeWithIdMapping
        simp only [M.run_bind, tick, M.modify, free, M.zoom, M.read, hd, expect_some, hcl, hr', Forest.callMap, hh,
          Dft.withToplevel, hal, Bool.not_true, Bool.false_eq_true, if_false, hnext, this]
        congr 2; omega
      have := Erases.pins_fail he this
      exact ⟨k + 1, by omega, this.1, fun r st' hr => by rw [this.2] at hr; cases hr⟩
    · have : ∀ n, cloneForeignTreeWithIdMapping cap cl hook fs t.root ((f, σ), n) =
          .ok s.size (st, n + (t.depthSum 0 + 7 * t.count - 4)) := by
        intro n
        have := hrun (n + 1)
        unfold cloneForeignTreeWithIdMapping
        simp only [M.run_bind, tick, M.modify, free, M.zoom, M.read, hd, expect_some, hcl, hr', Forest.callMap, hh,
          Dft.withToplevel, hal, Bool.not_true, Bool.false_eq_true, if_false, hnext, this]
        simp only [ends_nil, Dft.next, deNext, ne_eq, not_true, if_false, M.run_bind, M.read, M.zoom, M.run_pure]
        congr 2; omega
      have := Erases.pins_ok he this
      exact ⟨_, le_refl _, this.1, fun r st' hr => rfl⟩

end Treena.Steps
