import Verif.Proof.Clone
import Verif.Spec.CloneEffect
/-! Copying with a `T::clone` that has effects. -/
set_option autoImplicit false

namespace Treena
open Hier Shape
variable {T S τ : Type}

theorem replay_append (cap : Nat) (cl : Forest.CloneFn S T) (hook : Forest.MapHook S) : ∀ (a b : List (Nat × T)) (n : Nat) (σ : S),
    replay cap cl hook n σ (a ++ b) =
      match (replay cap cl hook n σ a).2.2 with
      | some _ => replay cap cl hook n σ a
      | none => ((replay cap cl hook n σ a).1 ++ (replay cap cl hook (n + a.length) (replay cap cl hook n σ a).2.1 b).1,
          (replay cap cl hook (n + a.length) (replay cap cl hook n σ a).2.1 b).2) := by
  intro a
  induction a with
  | nil => intro b n σ; simp [replay]
  | cons q a ih =>
    intro b n σ
    obtain ⟨y, d⟩ := q
    simp only [List.cons_append, replay]
    cases cl σ d with
    | error σ' => rfl
    | ok r =>
      obtain ⟨c, σ1⟩ := r
      simp only
      split
      · rfl
      · cases hook σ1 y n with
        | error σ' => rfl
        | ok σ2 =>
          simp only
          rw [ih b (n + 1) σ2]
          rw [show n + (List.length ((y, d) :: a)) = n + 1 + a.length by simp; omega]
          cases h : (replay cap cl hook (n + 1) σ2 a).2.2 with
          | some e => simp only [h]
          | none => simp only [h, List.cons_append]

theorem replay_le (cap : Nat) (cl : Forest.CloneFn S T) (hook : Forest.MapHook S) : ∀ (l : List (Nat × T)) (n : Nat) (σ : S),
    (replay cap cl hook n σ l).1.length ≤ l.length ∧
    ((replay cap cl hook n σ l).2.2 = none → (replay cap cl hook n σ l).1.length = l.length ∧ (l = [] ∨ n + l.length ≤ cap)) := by
  intro l
  induction l with
  | nil => intro n σ; simp [replay]
  | cons q l ih =>
    intro n σ
    obtain ⟨y, d⟩ := q
    simp only [replay]
    cases cl σ d with
    | error σ' => simp
    | ok r =>
      obtain ⟨c, σ1⟩ := r
      simp only
      split
      · simp
      · rename_i hc
        cases hook σ1 y n with
        | error σ' => simp
        | ok σ2 =>
          simp only [List.length_cons]
          refine ⟨by have := (ih (n + 1) σ2).1; omega, fun h => ?_⟩
          obtain ⟨h1, h2⟩ := (ih (n + 1) σ2).2 h
          refine ⟨by omega, .inr ?_⟩
          rcases h2 with rfl | h2
          · simp; omega
          · omega

theorem withData_append (dat : Nat → Option T) (a b : List Nat) : withData dat (a ++ b) = withData dat a ++ withData dat b :=
  List.filterMap_append

theorem length_withData {dat : Nat → Option T} : ∀ {ys : List Nat}, (∀ y ∈ ys, ∃ d, dat y = some d) →
    (withData dat ys).length = ys.length := by
  intro ys
  induction ys with
  | nil => intro _; rfl
  | cons y ys ih =>
    intro h
    obtain ⟨d, hd⟩ := h y (by simp)
    simp only [withData, List.filterMap_cons, hd, Option.map_some, List.length_cons]
    have := ih fun y hy => h y (by simp [hy])
    simpa [withData] using this

/-- One turn of the clone loop, the inner fuel being arbitrary. -/
def cloneMidE (cap : Nat) (cl : Forest.CloneFn S T) (src : Forest.CloneSrc T τ) (hook : Forest.MapHook S) (I : Nat)
    (i F : Nat) (cur : Nat) (tr : τ) : M (Forest T × S) (Nat × τ) := do
  let (o, cur', tr') ← Forest.cloneNextNodeE cap cl src i cur tr
  match o with
  | none => pure (cur', tr')
  | some srcId => do
    Forest.callMap hook srcId cur'
    Forest.cloneLoopE cap cl src hook I F cur' tr'

theorem cloneLoopE_succ (cap : Nat) (cl : Forest.CloneFn S T) (src : Forest.CloneSrc T τ) (hook : Forest.MapHook S)
    (I F cur : Nat) (tr : τ) :
    Forest.cloneLoopE cap cl src hook I (F + 1) cur tr = cloneMidE cap cl src hook I I F cur tr := rfl

section loop
variable {f : Forest T} {s : Shape} {cap : Nat} {cl : Forest.CloneFn S T} {src : Forest.CloneSrc T τ}
  {hook : Forest.MapHook S} {I : Nat} {trOf : List (Ev Nat) → τ} {E : List (Ev Nat)} {dat : Nat → Option T}

section
variable (hsrc : SrcOk src (fun g => ∃ s', Grown f s g s') trOf E dat)
include hsrc

theorem midE_close {g : Forest T} {s' : Shape} (hg : Grown f s g s') {cur y : Nat} (hcur : s'.alive cur = true)
    {done L : List (Ev Nat)} (hE : E = done ++ .cls y :: L) (i F : Nat) (σ : S) :
    cloneMidE cap cl src hook I (i + 1) F cur (trOf (.cls y :: L)) (g, σ) =
      match s'.parent cur with
      | some p => cloneMidE cap cl src hook I i F p (trOf L) (g, σ)
      | none => .ok (cur, trOf L) (g, σ) := by
  have hn := hsrc.next g ⟨s', hg⟩ done _ L hE
  have hl := (hg.models.agrees.live_iff hg.models.valid cur).2 hcur
  have hp : (g.hier.get cur).getParent = .ok (s'.parent cur) :=
    hg.models.agrees.getParent_get hg.models.valid hcur
  have hnb : ∀ msg, Forest.onForest (S := S) (Forest.onHier (T := T) (Hier.nbrOf cur msg)) (g, σ) = .ok (g.hier.get cur) (g, σ) :=
    fun msg => onForest_run (onHier_ok (nbrOf_live hl msg))
  cases hpp : s'.parent cur with
  | some p =>
    unfold cloneMidE
    simp only [M.run_bind]
    have : Forest.cloneNextNodeE cap cl src (i + 1) cur (trOf (.cls y :: L)) (g, σ) =
        Forest.cloneNextNodeE cap cl src i p (trOf L) (g, σ) := by
      rw [Forest.cloneNextNodeE]
      simp only [M.run_bind, M.read, hn, hnb, hp, hpp]
    rw [this]
  | none =>
    unfold cloneMidE
    simp only [M.run_bind]
    have : Forest.cloneNextNodeE cap cl src (i + 1) cur (trOf (.cls y :: L)) (g, σ) =
        .ok (none, cur, trOf L) (g, σ) := by
      rw [Forest.cloneNextNodeE]
      simp only [M.run_bind, M.read, hn, hnb, hp, hpp, M.run_pure]
    rw [this]
    rfl

theorem midE_open {g : Forest T} {s' : Shape} (hg : Grown f s g s') {cur y : Nat} (hcs : s.size ≤ cur)
    (hcur : s'.alive cur = true) {done L : List (Ev Nat)} (hE : E = done ++ .opn y :: L) (i F : Nat) (σ : S) :
    ∃ d, dat y = some d ∧
    match cl σ d with
    | .error σ' => cloneMidE cap cl src hook I (i + 1) F cur (trOf (.opn y :: L)) (g, σ) = .fail clonePanic (g, σ')
    | .ok (c, σ1) =>
      (cap ≤ s'.size ∧ cloneMidE cap cl src hook I (i + 1) F cur (trOf (.opn y :: L)) (g, σ) = .fail overflow (g, σ1)) ∨
      (s'.size < cap ∧ ∃ g', Grown f s g' (s'.addChild' cur) ∧ g'.data = g.data ++ [some c] ∧
        cloneMidE cap cl src hook I (i + 1) F cur (trOf (.opn y :: L)) (g, σ) =
        match hook σ1 y s'.size with
        | .error σ' => .fail mapPanic (g', σ')
        | .ok σ' => Forest.cloneLoopE cap cl src hook I F s'.size (trOf L) (g', σ')) := by
  have hn := hsrc.next g ⟨s', hg⟩ done _ L hE
  obtain ⟨d, hd, hd'⟩ := hsrc.data g ⟨s', hg⟩ y (by rw [hE]; simp)
  refine ⟨d, hd, ?_⟩
  have hsd : Forest.sourceData (src.data g) y = .ok d := by simp [Forest.sourceData, hd']
  cases hcl : cl σ d with
  | error σ' =>
    have : Forest.cloneNextNodeE cap cl src (i + 1) cur (trOf (.opn y :: L)) (g, σ) = .fail clonePanic (g, σ') := by
      rw [Forest.cloneNextNodeE]
      simp only [M.run_bind, M.read, hn, hsd, Forest.callClone, hcl, clonePanic]
    simp only
    unfold cloneMidE
    simp only [M.run_bind, this]
  | ok r =>
  obtain ⟨c, σ1⟩ := r
  simp only
  by_cases hc : s'.size < cap
  · right
    obtain ⟨g', h1, h2, h3⟩ := hg.addChild hcs hcur hc c
    refine ⟨hc, g', h2, h3, ?_⟩
    have : Forest.cloneNextNodeE cap cl src (i + 1) cur (trOf (.opn y :: L)) (g, σ) =
        .ok (some y, s'.size, trOf L) (g', σ1) := by
      rw [Forest.cloneNextNodeE]
      simp only [M.run_bind, M.read, hn, hsd, Forest.callClone, hcl, onForest_run h1, M.run_pure]
    unfold cloneMidE
    simp only [M.run_bind, this, Forest.callMap]
    cases hook σ1 y s'.size <;> rfl
  · left
    refine ⟨by omega, ?_⟩
    have : Forest.cloneNextNodeE cap cl src (i + 1) cur (trOf (.opn y :: L)) (g, σ) = .fail overflow (g, σ1) := by
      rw [Forest.cloneNextNodeE]
      simp only [M.run_bind, M.read, hn, hsd, Forest.callClone, hcl,
        onForest_fail (createInsert_full hg.models (by omega : cap ≤ s'.size) c (dest := .lastChildOf cur) hcur)]
    unfold cloneMidE
    simp only [M.run_bind, this]

end

/-- Result of the loop over the part of the events for the nodes `ys`. -/
def OutcomeE (f : Forest T) (s : Shape) (cap : Nat) (cl : Forest.CloneFn S T) (src : Forest.CloneSrc T τ) (hook : Forest.MapHook S)
    (dat : Nat → Option T) (I : Nat) (trOf : List (Ev Nat) → τ) (p : Nat) (L : List (Ev Nat))
    (ys : List Nat) (part : Nat → Shape) (g : Forest T) (size : Nat) (σ : S) (run : Res (Forest T × S) (Nat × τ)) : Prop :=
  ∃ g', g'.data = g.data ++ (replay cap cl hook size σ (withData dat ys)).1.map some ∧
    Grown f s g' (part (replay cap cl hook size σ (withData dat ys)).1.length) ∧
    match (replay cap cl hook size σ (withData dat ys)).2.2 with
    | some e => run = .fail e (g', (replay cap cl hook size σ (withData dat ys)).2.1)
    | none => ∃ i F, Fuel I i F L.length ∧
        run = cloneMidE cap cl src hook I i F p (trOf L) (g', (replay cap cl hook size σ (withData dat ys)).2.1)

mutual
theorem cloneE_tree (hsrc : SrcOk src (fun g => ∃ s', Grown f s g s') trOf E dat) :
    ∀ (t : Tree Nat) (g : Forest T) (s' : Shape) (p i F : Nat) (σ : S) (done L : List (Ev Nat)),
    E = done ++ t.events ++ L → Grown f s g s' → s.size ≤ p → s'.alive p = true →
    Fuel I i F (t.events ++ L).length →
    OutcomeE f s cap cl src hook dat I trOf p L t.preorder (fun m => Tree.graftL s' p (t.trunc m)) g s'.size σ
      (cloneMidE cap cl src hook I i F p (trOf (t.events ++ L)) (g, σ))
  | .node y ts, g, s', p, i, F, σ, done, L, hE, hg, hp, hpa, hfuel => by
    have hE1 : E = done ++ .opn y :: (Tree.eventsL ts ++ .cls y :: L) := by
      rw [hE]; simp [Tree.events]
    have hev : (Tree.node y ts).events ++ L = .opn y :: (Tree.eventsL ts ++ .cls y :: L) := by
      simp [Tree.events]
    have hlen : (((Tree.node y ts).events) ++ L).length = (Tree.eventsL ts ++ .cls y :: L).length + 1 := by
      rw [hev]; rfl
    rw [hlen] at hfuel
    obtain ⟨hI, hi, hF⟩ := hfuel
    obtain ⟨i, rfl⟩ : ∃ k, i = k + 1 := ⟨i - 1, by omega⟩
    obtain ⟨F, rfl⟩ : ∃ k, F = k + 1 := ⟨F - 1, by omega⟩
    rw [hev]
    obtain ⟨d, hd, h⟩ := midE_open (cap := cap) (cl := cl) (hook := hook) (I := I) hsrc hg hp hpa hE1 i (F + 1) σ
    have hwd : withData dat (Tree.node y ts).preorder = (y, d) :: withData dat (Tree.preorderL ts) := by
      simp [withData, Tree.preorder, hd]
    unfold OutcomeE
    rw [hwd]
    simp only [replay]
    cases hcl : cl σ d with
    | error σ' =>
      rw [hcl] at h
      refine ⟨g, by simp, ?_, h⟩
      simpa [Tree.trunc, Tree.graftL] using hg
    | ok r =>
    obtain ⟨c, σ1⟩ := r
    rw [hcl] at h
    simp only at h ⊢
    rcases h with ⟨hfull, hrun⟩ | ⟨hc, g1, hg1, hd1, hrun⟩
    · rw [if_pos hfull]
      exact ⟨g, by simp, by simpa [Tree.trunc, Tree.graftL] using hg, hrun⟩
    rw [if_neg (by omega)]
    cases hh : hook σ1 y s'.size with
    | error σ' =>
      rw [hh] at hrun
      refine ⟨g1, by simp [hd1], ?_, hrun⟩
      simpa [Tree.trunc, Tree.truncL_zero, Tree.graftL, Tree.graft] using hg1
    | ok σ2 =>
      rw [hh] at hrun
      simp only [cloneLoopE_succ] at hrun
      have hsz1 : (s'.addChild' p).size = s'.size + 1 := rfl
      have hal1 : (s'.addChild' p).alive s'.size = true := by simp [Shape.addChild', upd]
      have h2 := cloneE_forest hsrc ts g1 (s'.addChild' p) s'.size I F σ2 (done ++ [.opn y])
        (.cls y :: L) (by rw [hE1]; simp) hg1 hg.size hal1 ⟨by omega, by omega, by omega⟩
      unfold OutcomeE at h2
      rw [hsz1] at h2
      obtain ⟨g2, hda, hgr, h2⟩ := h2
      beta_reduce at hgr
      simp only
      generalize hR : replay cap cl hook (s'.size + 1) σ2 (withData dat (Tree.preorderL ts)) = R at *
      refine ⟨g2, by rw [hda, hd1]; simp, ?_, ?_⟩
      · simpa [Tree.trunc, Tree.graftL, Tree.graft] using hgr
      · cases hr : R.2.2 with
        | some e =>
          rw [hr] at h2
          simp only at h2 ⊢
          rw [hrun, h2]
        | none =>
          rw [hr] at h2
          obtain ⟨i2, F2, ⟨hI2, hi2, hF2⟩, hrun2⟩ := h2
          simp only [List.length_cons] at hI2 hi2 hF2
          obtain ⟨i2, rfl⟩ : ∃ k, i2 = k + 1 := ⟨i2 - 1, by omega⟩
          generalize hm : Tree.truncL R.1.length ts = us at *
          have hgs := Tree.graftL_spec us (s'.addChild' p) s'.size hg1.fresh (by rw [hsz1]; omega)
          have hpar : (Tree.graftL (s'.addChild' p) s'.size us).parent s'.size = some p := by
            rw [hgs.2.2.1.parent _ (by rw [hsz1]; omega)]; simp [Shape.addChild', upd]
          have hal2 : (Tree.graftL (s'.addChild' p) s'.size us).alive s'.size = true := by
            rw [hgs.2.2.1.alive _ (by rw [hsz1]; omega)]; exact hal1
          have hcl := midE_close (cap := cap) (cl := cl) (hook := hook) (I := I) hsrc hgr hal2
            (done := done ++ .opn y :: Tree.eventsL ts) (y := y) (L := L) (by rw [hE1]; simp) i2 F2 R.2.1
          rw [hpar] at hcl
          exact ⟨i2, F2, ⟨by omega, by omega, by omega⟩, by rw [hrun, hrun2, hcl]⟩
theorem cloneE_forest (hsrc : SrcOk src (fun g => ∃ s', Grown f s g s') trOf E dat) :
    ∀ (ts : List (Tree Nat)) (g : Forest T) (s' : Shape) (p i F : Nat) (σ : S) (done L : List (Ev Nat)),
    E = done ++ Tree.eventsL ts ++ L → Grown f s g s' → s.size ≤ p → s'.alive p = true →
    Fuel I i F (Tree.eventsL ts ++ L).length →
    OutcomeE f s cap cl src hook dat I trOf p L (Tree.preorderL ts) (fun m => Tree.graftL s' p (Tree.truncL m ts)) g s'.size σ
      (cloneMidE cap cl src hook I i F p (trOf (Tree.eventsL ts ++ L)) (g, σ))
  | [], g, s', p, i, F, σ, done, L, hE, hg, hp, hpa, hfuel => by
    exact ⟨g, by simp [Tree.preorderL, withData, replay], by simpa [Tree.preorderL, withData, replay, Tree.truncL, Tree.graftL] using hg, i, F, hfuel, rfl⟩
  | t :: ts, g, s', p, i, F, σ, done, L, hE, hg, hp, hpa, hfuel => by
    have hev : Tree.eventsL (t :: ts) ++ L = t.events ++ (Tree.eventsL ts ++ L) := by simp [Tree.eventsL]
    rw [hev] at hfuel ⊢
    have hall : ∀ y ∈ t.preorder, ∃ d, dat y = some d := fun y hy => by
      obtain ⟨d, hd, _⟩ := hsrc.data g ⟨s', hg⟩ y (by
        rw [hE]
        have := (Tree.mem_events_iff t y).1.2 hy
        simp [Tree.eventsL, this])
      exact ⟨d, hd⟩
    have h1 := cloneE_tree hsrc t g s' p i F σ done (Tree.eventsL ts ++ L)
      (by rw [hE]; simp [Tree.eventsL]) hg hp hpa hfuel
    obtain ⟨g1, hda, hgr, h1⟩ := h1
    have hplt : p < s'.size := hg.models.valid.alive_lt p hpa
    have hlen : t.preorder.length = t.count := Tree.length_preorder t
    have hwl : (withData dat t.preorder).length = t.count := by rw [length_withData hall, hlen]
    have hw : withData dat (Tree.preorderL (t :: ts)) = withData dat t.preorder ++ withData dat (Tree.preorderL ts) := by
      rw [Tree.preorderL, withData_append]
    have hle := replay_le cap cl hook (withData dat t.preorder) s'.size σ
    unfold OutcomeE
    rw [hw, replay_append, hwl]
    generalize hR : replay cap cl hook s'.size σ (withData dat t.preorder) = R at *
    cases hr : R.2.2 with
    | some e =>
      rw [hr] at h1
      simp only at h1 ⊢
      refine ⟨g1, hda, ?_, ?_⟩
      · simp only [Tree.truncL]
        rw [show R.1.length - t.count = 0 by omega, Tree.truncL_zero, List.append_nil]
        exact hgr
      · rw [hr]; exact h1
    | none =>
      rw [hr] at h1
      obtain ⟨i2, F2, hfu2, hrun⟩ := h1
      obtain ⟨hfl, hcap⟩ := hle.2 hr
      rw [hwl] at hfl
      have htr : t.trunc R.1.length = [t] := Tree.trunc_all t (by omega)
      beta_reduce at hgr
      rw [htr] at hgr
      have hgs := Tree.graft_spec t s' p hg.fresh hplt
      have hgr' : Grown f s g1 (Tree.graft s' p t) := by simpa [Tree.graftL] using hgr
      have h2 := cloneE_forest hsrc ts g1 (Tree.graft s' p t) p i2 F2 R.2.1 (done ++ t.events) L
        (by rw [hE]; simp [Tree.eventsL]) hgr' hp (by rw [hgs.2.2.1.alive p hplt]; exact hpa) hfu2
      unfold OutcomeE at h2
      rw [hgs.1] at h2
      obtain ⟨g2, hda2, hgr2, h2⟩ := h2
      simp only
      generalize replay cap cl hook (s'.size + t.count) R.2.1 (withData dat (Tree.preorderL ts)) = R' at *
      refine ⟨g2, by rw [hda2, hda]; simp, ?_, ?_⟩
      · rw [List.length_append]
        simp only [Tree.truncL]
        rw [Tree.trunc_all t (by omega), hfl, Nat.add_sub_cancel_left]
        exact hgr2
      · rw [hrun]
        exact h2
end

end loop

/-- The part common to the two clone functions: root, callback, loop. -/
def cloneBodyE (cap : Nat) (cl : Forest.CloneFn S T) (hook : Forest.MapHook S)
    (srcRoot : Nat) (d : T) (rest : Nat → M (Forest T × S) Nat) : M (Forest T × S) Nat := do
  let c ← Forest.callClone cl d
  let rootId ← Forest.onForest (Forest.createRoot cap c)
  Forest.callMap hook srcRoot rootId
  rest rootId

theorem cloneE_core {f : Forest T} {s : Shape} {cap : Nat} {cl : Forest.CloneFn S T} {src : Forest.CloneSrc T τ}
    {hook : Forest.MapHook S} {trOf : List (Ev Nat) → τ} {dat : Nat → Option T} {t : Tree Nat} {d : T}
    {rest : Nat → M (Forest T × S) Nat} (hm : Models f s)
    (hsrc : SrcOk src (fun g => ∃ s', Grown f s g s') trOf t.events dat) (hd : dat t.root = some d)
    (hrest : ∀ g, Grown f s g s.addRoot → ∃ I J, t.events.length < I ∧ t.events.length < J ∧ ∀ σ,
      (∀ st, Forest.cloneLoopE cap cl src hook I J s.size (trOf t.events.tail) (g, σ) = .ok (s.size, trOf []) st →
        rest s.size (g, σ) = .ok s.size st) ∧
      (∀ e st, Forest.cloneLoopE cap cl src hook I J s.size (trOf t.events.tail) (g, σ) = .fail e st →
        rest s.size (g, σ) = .fail e st)) (σ : S) :
    CopiedBy f s cap cl hook dat t σ (cloneBodyE cap cl hook t.root d rest (f, σ)) := by
  cases t with
  | node y ts =>
  simp only [Tree.root] at hd ⊢
  have hsame : Grown f s f s := ⟨hm, Nat.le_refl _, fun _ _ => rfl, fun _ _ => rfl, fun _ _ => rfl, fun _ _ => rfl⟩
  have hwd : withData dat (Tree.node y ts).preorder = (y, d) :: withData dat (Tree.preorderL ts) := by
    simp [withData, Tree.preorder, hd]
  unfold CopiedBy
  rw [hwd]
  simp only [replay]
  cases hcl : cl σ d with
  | error σ' =>
    refine ⟨f, s, ?_, hsame, rfl, by simp, fun x h1 h2 => by omega, by simp [Tree.trunc]⟩
    unfold cloneBodyE
    rw [M.run_bind]; simp only [Forest.callClone, hcl]; rfl
  | ok r =>
  obtain ⟨c, σ1⟩ := r
  simp only
  by_cases hcap : s.size < cap
  swap
  · rw [if_pos (by omega)]
    refine ⟨f, s, ?_, hsame, rfl, by simp, fun x h1 h2 => by omega, by simp [Tree.trunc]⟩
    unfold cloneBodyE
    rw [M.run_bind]; simp only [Forest.callClone, hcl]
    rw [M.run_bind, onForest_fail (createRoot_full hm (by omega) c)]; rfl
  rw [if_neg (by omega)]
  obtain ⟨g0, hr, hg0, hd0⟩ := grown_addRoot hm hcap c
  have hrun : cloneBodyE cap cl hook y d rest (f, σ) =
      match hook σ1 y s.size with
      | .error σ' => .fail mapPanic (g0, σ')
      | .ok σ' => rest s.size (g0, σ') := by
    unfold cloneBodyE
    rw [M.run_bind]
    simp only [Forest.callClone, hcl]
    rw [M.run_bind, onForest_run hr]
    simp only [M.run_bind, Forest.callMap]
    cases hook σ1 y s.size <;> rfl
  have hsz : s.addRoot.size = s.size + 1 := rfl
  have hal : s.addRoot.alive s.size = true := addRoot_alive_self s
  have key : ∀ us : List (Tree Nat), (∀ x, s.size ≤ x → x < (Tree.graftL s.addRoot s.size us).size →
        (Tree.graftL s.addRoot s.size us).alive x = true) ∧
      Tree.IsTree (Tree.graftL s.addRoot s.size us).kids ((Tree.node y us).number s.size) ∧
      (Tree.graftL s.addRoot s.size us).parent s.size = none ∧
      (Tree.graftL s.addRoot s.size us).size = s.size + 1 + Tree.countL us := by
    intro us
    have hgs := Tree.graftL_spec us s.addRoot s.size hg0.models.valid.fresh (by rw [hsz]; omega)
    refine ⟨?_, ?_, ?_, by rw [hgs.1, hsz]⟩
    · intro x hx1 hx2
      by_cases e : x = s.size
      · subst e; rw [hgs.2.2.1.alive _ (by rw [hsz]; omega)]; exact hal
      · exact hgs.2.2.2.2.2 x (by rw [hsz]; omega) hx2
    · simp only [Tree.number, Tree.IsTree]
      refine ⟨?_, by have := hgs.2.2.2.2.1; rwa [hsz] at this⟩
      rw [hgs.2.2.2.1, hsz]
      show s.kids s.size ++ _ = _
      rw [hm.valid.dead_kids hm.valid.dead_size]; rfl
    · rw [hgs.2.2.1.parent _ (by rw [hsz]; omega)]
      exact hm.valid.dead_parent hm.valid.dead_size
  rw [hrun]
  cases hh : hook σ1 y s.size with
  | error σ' =>
    obtain ⟨k1, k2, k3, _⟩ := key []
    refine ⟨g0, s.addRoot, rfl, hg0, rfl, by simp [hd0], k1, ?_⟩
    intro t' ht'
    simp only [List.length_singleton, Tree.trunc, Nat.sub_self, Tree.truncL_zero, Nat.one_ne_zero, if_false, List.mem_singleton] at ht'
    subst ht'
    exact ⟨k2, k3⟩
  | ok σ2 =>
    obtain ⟨I, J, hI, hJ, hrest⟩ := hrest g0 hg0
    obtain ⟨hr1, hr2⟩ := hrest σ2
    have hev : (Tree.node y ts).events.tail = Tree.eventsL ts ++ [.cls y] := by simp [Tree.events]
    have hEe : (Tree.node y ts).events = [.opn y] ++ Tree.eventsL ts ++ [.cls y] := by simp [Tree.events]
    rw [hev] at hr1 hr2
    have hlenE : (Tree.node y ts).events.length = (Tree.eventsL ts ++ [Ev.cls y]).length + 1 := by
      rw [hEe]; simp
    rw [hlenE] at hI hJ
    obtain ⟨F, hF⟩ : ∃ F, J = F + 1 := ⟨J - 1, by omega⟩
    have hloop : Forest.cloneLoopE cap cl src hook I J s.size (trOf (Tree.eventsL ts ++ [.cls y])) (g0, σ2) =
        cloneMidE cap cl src hook I I F s.size (trOf (Tree.eventsL ts ++ [.cls y])) (g0, σ2) := by
      have : Forest.cloneLoopE cap cl src hook I J = Forest.cloneLoopE cap cl src hook I (F + 1) := by rw [← hF]
      rw [this, cloneLoopE_succ]
    rw [hloop] at hr1 hr2
    have hall : ∀ x ∈ Tree.preorderL ts, ∃ d, dat x = some d := fun x hx => by
      obtain ⟨d, hd, _⟩ := hsrc.data f ⟨s, hsame⟩ x (by
        have := (Tree.mem_events_iff (.node y ts) x).1.2 (by simp [Tree.preorder, hx])
        exact this)
      exact ⟨d, hd⟩
    have h2 := cloneE_forest (cap := cap) (cl := cl) (hook := hook) (I := I) hsrc ts g0 s.addRoot
      s.size I F σ2 [.opn y] [.cls y] hEe hg0 (Nat.le_refl _) hal ⟨by omega, by omega, by omega⟩
    unfold OutcomeE at h2
    rw [hsz] at h2
    obtain ⟨g2, hda, hgr, h2⟩ := h2
    have hle := replay_le cap cl hook (withData dat (Tree.preorderL ts)) (s.size + 1) σ2
    rw [length_withData hall, Tree.length_preorderL] at hle
    simp only
    generalize hR : replay cap cl hook (s.size + 1) σ2 (withData dat (Tree.preorderL ts)) = R at *
    obtain ⟨k1, k2, k3, k4⟩ := key (Tree.truncL R.1.length ts)
    have hcount : Tree.countL (Tree.truncL R.1.length ts) = R.1.length := by
      rw [← Tree.length_preorderL, Tree.preorderL_truncL, List.length_take, Tree.length_preorderL]; omega
    refine ⟨g2, Tree.graftL s.addRoot s.size (Tree.truncL R.1.length ts), ?_, hgr, ?_, by rw [hda, hd0]; simp, k1, ?_⟩
    · cases he : R.2.2 with
      | some e =>
        rw [he] at h2
        simp only [ends?]
        exact hr2 _ _ h2
      | none =>
        rw [he] at h2
        obtain ⟨i2, F2, ⟨hI2, hi2, hF2⟩, hrun2⟩ := h2
        simp only [List.length_cons, List.length_nil] at hi2
        obtain ⟨i2, rfl⟩ : ∃ k, i2 = k + 1 := ⟨i2 - 1, by omega⟩
        have hal2 := k1 s.size (Nat.le_refl _) (by rw [k4]; omega)
        have hcl := midE_close (cap := cap) (cl := cl) (hook := hook) (I := I) hsrc hgr hal2
          (done := .opn y :: Tree.eventsL ts) (y := y) (L := []) (by rw [hEe]; simp) i2 F2 R.2.1
        rw [k3] at hcl
        simp only [ends?]
        exact hr1 _ (by rw [hrun2, hcl])
    · rw [k4, hcount, List.length_cons]; omega
    · intro t' ht'
      simp only [List.length_cons, Tree.trunc, Nat.add_sub_cancel, Nat.succ_ne_zero, if_false, List.mem_singleton] at ht'
      subst ht'
      exact ⟨k2, k3⟩

theorem cloneLocalE_spec {f : Forest T} {s : Shape} {cap : Nat} {cl : Forest.CloneFn S T} {hook : Forest.MapHook S}
    {t : Tree Nat} (hm : Models f s) (ht : Tree.IsTree s.kids t) (hx : s.alive t.root = true) (σ : S) :
    CopiedBy f s cap cl hook f.getData t σ
      (Forest.cloneLocalTreeWithIdMappingE cap cl hook t.root (f, σ)) := by
  obtain ⟨d, hd⟩ := data_some hm hx
  have hsrc := local_src hm ht hx
  have key : Forest.cloneLocalTreeWithIdMappingE cap cl hook t.root (f, σ) =
      cloneBodyE cap cl hook t.root d (fun rootId => do
        let tr ← M.read fun p => Safe.new t.root p.1.hier
        let (_, tr) ← M.read fun p => Safe.next p.1.hier tr
        let (cur, _) ← Forest.cloneLoopE cap cl Forest.localSrc hook (Forest.cloneFuel cap cap + 2 * f.hier.nbrs.length)
          (cap + 1 + 2 * f.hier.nbrs.length) rootId tr
        if cur ≠ rootId then
          M.panic "[consistency] all nodes including the root must have been closed"
        else pure rootId) (f, σ) := by
    unfold Forest.cloneLocalTreeWithIdMappingE cloneBodyE
    rw [M.run_bind]
    simp only [M.read]
    rw [M.run_bind]
    have hrd : (M.read (fun p : Forest T × S => expect (p.1.getData t.root) "[consistency] the node must be alive")) (f, σ) =
        Res.ok d (f, σ) := by simp [M.read, hd, expect_some]
    rw [hrd]
  rw [key]
  refine cloneE_core hm hsrc hd ?_ σ
  intro g hg
  have h2 := Tree.count_le_size hm.valid ht hx
  have h4 : f.hier.nbrs.length = s.size := hm.agrees.1
  have h3 : 0 < Forest.cloneFuel cap cap := by unfold Forest.cloneFuel; positivity
  refine ⟨Forest.cloneFuel cap cap + 2 * f.hier.nbrs.length, cap + 1 + 2 * f.hier.nbrs.length,
    by rw [Tree.length_events]; omega, by rw [Tree.length_events]; omega, ?_⟩
  intro σ1
  have hal : g.hier.isAlive t.root = true := by
    rw [hg.models.hierAlive]; exact addRoot_alive_of hx
  have hnext := hsrc.next g ⟨_, hg⟩ [] (.opn t.root) t.events.tail (events_cons t)
  simp only [Forest.localSrc, List.head?_cons] at hnext
  constructor
  · intro st h
    simp only [M.run_bind, M.read, Safe.new, hal, Bool.not_true, Bool.false_eq_true, if_false, hnext, h]
    simp
  · intro e st h
    simp only [M.run_bind, M.read, Safe.new, hal, Bool.not_true, Bool.false_eq_true, if_false, hnext, h]

theorem cloneForeignE_spec {f fs : Forest T} {s ss : Shape} {cap : Nat} {cl : Forest.CloneFn S T} {hook : Forest.MapHook S}
    {t : Tree Nat} (hm : Models f s) (hms : Models fs ss) (ht : Tree.IsTree ss.kids t)
    (hx : ss.alive t.root = true) (σ : S) :
    CopiedBy f s cap cl hook fs.getData t σ
      (Forest.cloneForeignTreeWithIdMappingE cap cl hook fs t.root (f, σ)) := by
  obtain ⟨d, hd⟩ := data_some hms hx
  have hsrc := foreign_src (f := f) (s := s) hms ht hx
  have key : Forest.cloneForeignTreeWithIdMappingE cap cl hook fs t.root (f, σ) =
      cloneBodyE cap cl hook t.root d (fun rootId => do
        let tr ← M.read fun _ => Dft.withToplevel t.root fs.hier
        let (_, tr) ← M.read fun _ => Dft.next fs.hier tr
        let (cur, tr) ← Forest.cloneLoopE cap cl (Forest.foreignSrc fs) hook
          (Forest.cloneFuel cap fs.hier.nbrs.length + 2 * fs.hier.nbrs.length) (cap + 1 + 2 * fs.hier.nbrs.length) rootId tr
        if cur ≠ rootId then
          M.panic "[consistency] traversal must end with the closing of the destination root node"
        else do
          let (last, _) ← M.read fun _ => Dft.next fs.hier tr
          if last ≠ none then
            M.panic "[consistency] traversal must also end with the closing of the source root node"
          else pure rootId) (f, σ) := by
    unfold Forest.cloneForeignTreeWithIdMappingE cloneBodyE
    rw [M.run_bind]
    simp only [M.read, hd, expect_some]
  rw [key]
  refine cloneE_core hm hsrc hd ?_ σ
  intro g hg
  have h2 := Tree.count_le_size hms.valid ht hx
  have h4 : fs.hier.nbrs.length = ss.size := hms.agrees.1
  have h3 : 0 < Forest.cloneFuel cap fs.hier.nbrs.length := by unfold Forest.cloneFuel; positivity
  refine ⟨Forest.cloneFuel cap fs.hier.nbrs.length + 2 * fs.hier.nbrs.length, cap + 1 + 2 * fs.hier.nbrs.length,
    by rw [Tree.length_events]; omega, by rw [Tree.length_events]; omega, ?_⟩
  intro σ1
  have hal : fs.hier.isAlive t.root = true := by rw [hms.hierAlive]; exact hx
  have hnext := hsrc.next g ⟨_, hg⟩ [] (.opn t.root) t.events.tail (events_cons t)
  have hst : ends (Ev.opn t.root :: t.events.tail) = some (.opn t.root, .cls t.root) := by
    rw [← events_cons, ends_events]
  simp only [Forest.foreignSrc, hst] at hnext
  constructor
  · intro st h
    simp only [M.run_bind, M.read, Dft.withToplevel, hal, Bool.not_true, Bool.false_eq_true, if_false, hnext, h]
    simp only [ends_nil, Dft.next, deNext, ne_eq, not_true, if_false, M.run_bind, M.read]
    rfl
  · intro e st h
    simp only [M.run_bind, M.read, Dft.withToplevel, hal, Bool.not_true, Bool.false_eq_true, if_false, hnext, h]

/-! ### Without effects: the model of `Model/Forest.lean` -/

theorem callClone_pure (cl : T → Option T) (d : T) :
    (Forest.callClone (Forest.pureClone cl) d : M (Forest T × S) T) = M.read fun _ => expect (cl d) "T::clone panicked" := by
  funext ⟨g, σ⟩
  simp only [Forest.callClone, Forest.pureClone, M.read]
  cases cl d <;> rfl

theorem cloneNextNodeE_pure (cap : Nat) (cl : T → Option T) (src : Forest.CloneSrc T τ) : ∀ (i cur : Nat) (tr : τ) (p : Forest T × S),
    Forest.cloneNextNodeE cap (Forest.pureClone cl) src i cur tr p =
      Forest.onForest (Forest.cloneNextNode cap cl src i cur tr) p := by
  intro i
  induction i with
  | zero => intro cur tr p; rfl
  | succ i ih =>
    rintro cur tr ⟨g, σ⟩
    rw [Forest.cloneNextNodeE, Forest.cloneNextNode]
    simp only [M.run_bind, M.read, Forest.onForest, M.zoom]
    cases src.next g tr with
    | error e => rfl
    | ok q =>
      obtain ⟨ev, tr'⟩ := q
      simp only
      cases ev with
      | none => rfl
      | some ev =>
        cases ev with
        | opn y =>
          simp only [M.run_bind, M.read, callClone_pure, Forest.sourceData, Forest.clonedData]
          cases hx : expect (src.data g)[y]? "[consistency] the node being traversed must be alive" with
          | error e => rfl
          | ok o =>
            simp only
            cases expect o "[consistency] the node being traversed must be alive" with
            | error e => rfl
            | ok d =>
              simp only
              cases expect (cl d) "T::clone panicked" with
              | error e => rfl
              | ok c =>
                simp only [M.zoom]
                cases Forest.createInsertMomo cap c (.lastChildOf cur) g <;> rfl
        | cls y =>
          simp only [M.run_bind, M.read, M.zoom]
          cases Forest.onHier (Hier.nbrOf cur "[consistency] the node being created must be alive") g with
          | fail e g' => rfl
          | ok nb g' =>
            simp only
            cases nb.getParent with
            | error e => rfl
            | ok o =>
              cases o with
              | none => rfl
              | some id =>
                simp only
                rw [ih]
                rfl

theorem cloneLoopE_pure (cap : Nat) (cl : T → Option T) (src : Forest.CloneSrc T τ) (hook : Forest.MapHook S) (I : Nat) :
    ∀ (F cur : Nat) (tr : τ), Forest.cloneLoopE cap (Forest.pureClone cl) src hook I F cur tr =
      Forest.cloneLoop cap cl src hook I F cur tr := by
  intro F
  induction F with
  | zero => intro cur tr; rfl
  | succ F ih =>
    intro cur tr
    rw [Forest.cloneLoopE, Forest.cloneLoop]
    simp only [ih]
    congr 1
    funext p
    exact cloneNextNodeE_pure cap cl src I cur tr p

theorem cloneLocalE_pure (cap : Nat) (cl : T → Option T) (hook : Forest.MapHook S) (x : Nat) (p : Forest T × S) :
    Forest.cloneLocalTreeWithIdMappingE cap (Forest.pureClone cl) hook x p = Forest.cloneLocalTreeWithIdMapping cap cl hook x p := by
  rw [← cloneLocal_fuel hook x (2 * p.1.hier.nbrs.length) (2 * p.1.hier.nbrs.length)]
  unfold Forest.cloneLocalTreeWithIdMappingE cloneLocalFueled
  rw [M.run_bind]
  simp only [M.read, callClone_pure, cloneLoopE_pure]

theorem cloneForeignE_pure (cap : Nat) (cl : T → Option T) (hook : Forest.MapHook S) (fs : Forest T) (x : Nat) :
    Forest.cloneForeignTreeWithIdMappingE cap (Forest.pureClone cl) hook fs x =
      (Forest.cloneForeignTreeWithIdMapping cap cl hook fs x : M (Forest T × S) Nat) := by
  rw [← cloneForeign_fuel hook fs x (2 * fs.hier.nbrs.length) (2 * fs.hier.nbrs.length)]
  unfold Forest.cloneForeignTreeWithIdMappingE cloneForeignFueled
  simp only [callClone_pure, cloneLoopE_pure]

end Treena
