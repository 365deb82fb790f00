import Verif.Proof.Graft
import Verif.Proof.Sibs
import Verif.Proof.FuelClone
import Verif.Spec.Clone
/-! Cloning of trees. -/

namespace Treena
open Hier Shape

theorem feed_append {S ι : Type} (hook : S → ι → Except S S) : ∀ (a b : List ι) (σ : S),
    feed hook σ (a ++ b) = match feed hook σ a with
      | (σ', some k) => (σ', some k)
      | (σ', none) => ((feed hook σ' b).1, (feed hook σ' b).2.map (· + a.length))
  | [], b, σ => by simp [feed]
  | x :: a, b, σ => by
    simp only [List.cons_append, feed]
    cases hook σ x with
    | error s' => rfl
    | ok s' =>
      simp only [feed_append hook a b s']
      cases h : feed hook s' a with
      | mk σ' k =>
        cases k with
        | some k => simp
        | none => simp [Function.comp_def, Nat.add_assoc]

theorem data_push {T : Type} {f f' : Forest T} {d : T} (hl : f'.data.length = f.data.length + 1)
    (hg : ∀ x, f'.getData x = if x = f.data.length then some d else f.getData x) :
    f'.data = f.data ++ [some d] := by
  apply List.ext_getElem?
  intro i
  have := hg i
  unfold Forest.getData at this
  by_cases e : i = f.data.length
  · subst e
    rw [if_pos rfl] at this
    rw [List.getElem?_eq_getElem (by omega)] at this ⊢
    simpa using this
  · rw [if_neg e] at this
    by_cases hi : i < f.data.length
    · rw [List.getElem?_append_left hi]
      rw [List.getElem?_eq_getElem (by omega), List.getElem?_eq_getElem hi] at this ⊢
      simpa using this
    · rw [List.getElem?_eq_none (by omega), List.getElem?_eq_none (by simp; omega)]

variable {T : Type} {S τ : Type}

/-- What the proof needs of the source traverser: over every grown forest it emits `E`, and the data of
the nodes are as in `dat`. -/
structure SrcOk (src : Forest.CloneSrc T τ) (P : Forest T → Prop) (trOf : List (Ev Nat) → τ)
    (E : List (Ev Nat)) (dat : Nat → Option T) : Prop where
  next : ∀ g, P g → ∀ done e L, E = done ++ e :: L → src.next g (trOf (e :: L)) = .ok (some e, trOf L)
  data : ∀ g, P g → ∀ y, Ev.opn y ∈ E → ∃ d, dat y = some d ∧ (src.data g)[y]? = some (some d)

/-- One turn of the clone loop, the inner fuel being arbitrary. -/
def cloneMid (cap : Nat) (cl : T → Option T) (src : Forest.CloneSrc T τ) (hook : Forest.MapHook S) (I : Nat)
    (i F : Nat) (cur : Nat) (tr : τ) : M (Forest T × S) (Nat × τ) := do
  let (o, cur', tr') ← Forest.onForest (Forest.cloneNextNode cap cl src i cur tr)
  match o with
  | none => pure (cur', tr')
  | some srcId => do
    Forest.callMap hook srcId cur'
    Forest.cloneLoop cap cl src hook I F cur' tr'

theorem cloneLoop_succ (cap : Nat) (cl : T → Option T) (src : Forest.CloneSrc T τ) (hook : Forest.MapHook S)
    (I F cur : Nat) (tr : τ) :
    Forest.cloneLoop cap cl src hook I (F + 1) cur tr = cloneMid cap cl src hook I I F cur tr := rfl

theorem onForest_fail {α : Type} {m : M (Forest T) α} {g g' : Forest T} {e : Fail} {σ : S}
    (h : m g = .fail e g') : Forest.onForest m (g, σ) = .fail e (g', σ) := by
  simp [Forest.onForest, M.zoom, h]

theorem createInsert_full {f : Forest T} {s : Shape} (hm : Models f s) {cap : Nat} (hcap : cap ≤ s.size)
    (d : T) {dest : InsertAs} (ha : s.alive dest.place.anchor = true) :
    Forest.createInsertMomo cap d dest f = .fail overflow f := by
  have hval : f.hier.isValid dest.toAnchor = true := by
    have h1 := hm.valid.alive_lt _ ha
    rw [← hm.agrees.1] at h1
    have : dest.toAnchor = dest.place.anchor := by cases dest <;> rfl
    unfold isValid; rw [this]; simpa using h1
  unfold Forest.createInsertMomo
  simp [M.read, hval, onHier_fail (hier_createRoot_full hm.agrees hcap), overflow]

theorem Grown.addChild {f g : Forest T} {s s' : Shape} (hg : Grown f s g s') {p : Nat} (hp : s.size ≤ p)
    (hpa : s'.alive p = true) {cap : Nat} (hcap : s'.size < cap) (d : T) :
    ∃ g', Forest.createInsertMomo cap d (.lastChildOf p) g = .ok s'.size g' ∧
      Grown f s g' (s'.addChild' p) ∧ g'.data = g.data ++ [some d] := by
  obtain ⟨g', h1, h2, h3⟩ := createInsert_models hg.models hcap d (dest := .lastChildOf p) (P := p) hpa rfl
  have he : s'.addRoot.move s'.size (InsertAs.lastChildOf p).place = s'.addChild' p :=
    hg.models.valid.addChild_eq p
  rw [he] at h2
  have hsz := hg.size
  refine ⟨g', h1, ⟨h2, ?_, ?_, ?_, ?_, ?_⟩, ?_⟩
  · show s.size ≤ s'.size + 1; omega
  · intro x hx; rw [← hg.alive x hx]; simp only [Shape.addChild', upd]; rw [if_neg (by omega)]
  · intro x hx; rw [← hg.parent x hx]; simp only [Shape.addChild', upd]; rw [if_neg (by omega)]
  · intro x hx; rw [← hg.kids x hx]; simp only [Shape.addChild', upd]; rw [if_neg (by omega)]
  · intro x hx; rw [h3 x, if_neg (by omega), hg.data x hx]
  · apply data_push
    · rw [h2.dataLen, hg.models.dataLen]; rfl
    · intro x; rw [h3 x, hg.models.dataLen]

namespace Tree
variable {α : Type}

theorem preorderL_append (a b : List (Tree α)) : preorderL (a ++ b) = preorderL a ++ preorderL b := by
  induction a with
  | nil => rfl
  | cons t a ih => simp only [List.cons_append, preorderL, ih, List.append_assoc]

mutual
theorem trunc_zero : ∀ t : Tree α, trunc 0 t = []
  | .node a ts => by simp [trunc]
theorem truncL_zero : ∀ ts : List (Tree α), truncL 0 ts = []
  | [] => rfl
  | t :: ts => by rw [truncL, trunc_zero t, Nat.zero_sub, truncL_zero ts]; rfl
end

mutual
theorem trunc_all : ∀ (t : Tree α) {m : Nat}, t.count ≤ m → trunc m t = [t]
  | .node a ts, m, h => by
    simp only [count] at h
    rw [trunc, if_neg (by omega), truncL_all ts (by omega)]
theorem truncL_all : ∀ (ts : List (Tree α)) {m : Nat}, countL ts ≤ m → truncL m ts = ts
  | [], m, h => rfl
  | t :: ts, m, h => by
    simp only [countL] at h
    rw [truncL, trunc_all t (by omega), truncL_all ts (by omega)]; rfl
end

mutual
theorem preorderL_trunc : ∀ (t : Tree α) (m : Nat), preorderL (trunc m t) = t.preorder.take m
  | .node a ts, m => by
    rw [trunc]
    split
    · rename_i h; simp [h, preorderL]
    · rename_i h
      obtain ⟨k, rfl⟩ : ∃ k, m = k + 1 := ⟨m - 1, by omega⟩
      simp only [preorderL, preorder, List.append_nil, Nat.add_sub_cancel, List.take_succ_cons, preorderL_truncL ts k]
theorem preorderL_truncL : ∀ (ts : List (Tree α)) (m : Nat), preorderL (truncL m ts) = (preorderL ts).take m
  | [], m => by simp [truncL, preorderL]
  | t :: ts, m => by
    rw [truncL, preorderL_append, preorderL_trunc t m, preorderL_truncL ts, preorderL, List.take_append,
      length_preorder]
end

end Tree

theorem Failed.append {cap size : Nat} {fine : Nat → Bool} {hook : S → Nat × Nat → Except S S} {a b : List (Nat × Nat)} {σ σ' : S}
    {e : Fail} {m : Nat} (h : Failed cap size fine hook a σ σ' e m) : Failed cap size fine hook (a ++ b) σ σ' e m := by
  cases h with
  | hook k h1 h2 h3 h4 =>
    exact .hook k (by rw [feed_append, h1]) (by simp; omega) h3
      (by rw [List.take_append_of_le_length (by omega)]; exact h4)
  | full h1 h2 h4 =>
    exact .full (by simp; omega) (by rw [List.take_append_of_le_length (by omega)]; exact h2)
      (by rw [List.take_append_of_le_length (by omega)]; exact h4)
  | clone k h1 h2 h3 h4 =>
    obtain ⟨q, hq, hf⟩ := h4
    have hk : m < a.length := (List.getElem?_eq_some_iff.1 hq).1
    exact .clone m (by rw [List.take_append_of_le_length (by omega)]; exact h1) h2
      (by rw [List.take_append_of_le_length (by omega)]; exact h3)
      ⟨q, by rw [List.getElem?_append_left hk]; exact hq, hf⟩

theorem Failed.after {cap size : Nat} {fine : Nat → Bool} {hook : S → Nat × Nat → Except S S} {a b : List (Nat × Nat)} {σ σ1 σ' : S}
    {e : Fail} {m : Nat} (ha : feed hook σ a = (σ1, none)) (hc : size + a.length ≤ cap)
    (hfa : ∀ q ∈ a, fine q.1 = true)
    (h : Failed cap (size + a.length) fine hook b σ1 σ' e m) :
    Failed cap size fine hook (a ++ b) σ σ' e (a.length + m) := by
  have hall : ∀ n, (∀ q ∈ b.take n, fine q.1 = true) → ∀ q ∈ (a ++ b).take (a.length + n), fine q.1 = true := by
    intro n h q hq
    rw [List.take_length_add_append, List.mem_append] at hq
    exact hq.elim (hfa q) (h q)
  cases h with
  | hook k h1 h2 h3 h4 =>
    have := Failed.hook (cap := cap) (size := size) (hook := hook) (pairs := a ++ b) (σ := σ) (σ' := σ')
      (a.length + k) (by rw [feed_append, ha]; simp [h1, Nat.add_comm]) (by simp; omega) (by omega)
      (hall _ h4)
    rw [← Nat.add_assoc]; exact this
  | full h1 h2 h4 =>
    have e1 : cap - size = a.length + (cap - (size + a.length)) := by omega
    have := Failed.full (cap := cap) (size := size) (hook := hook) (pairs := a ++ b) (σ := σ) (σ' := σ')
      (by simp; omega) (by rw [e1, List.take_length_add_append, feed_append, ha]; simp [h2])
      (by rw [e1, Nat.add_assoc]; exact hall _ h4)
    rw [← e1]; exact this
  | clone k h1 h2 h3 h4 =>
    obtain ⟨q, hq, hf⟩ := h4
    exact .clone (a.length + m) (by rw [List.take_length_add_append, feed_append, ha]; simp [h1]) (by omega)
      (hall _ h3) ⟨q, by rw [List.getElem?_append_right (by omega)]; simpa using hq, hf⟩

section loop
variable {f : Forest T} {s : Shape} {cap : Nat} {cl : T → Option T} {src : Forest.CloneSrc T τ}
  {hook : Forest.MapHook S} {I : Nat} {trOf : List (Ev Nat) → τ} {E : List (Ev Nat)} {dat : Nat → Option T}

/-- Result of the loop over one part of the events. -/
def Outcome (f : Forest T) (s : Shape) (cap : Nat) (cl : T → Option T) (hook : Forest.MapHook S) (dat : Nat → Option T)
    (ys : List Nat) (grown : Shape) (part : Nat → Shape) (g : Forest T) (size : Nat) (σ : S)
    (run : Res (Forest T × S) (Nat × τ)) (cont : Forest T × S → Res (Forest T × S) (Nat × τ) → Prop) : Prop :=
  ∃ g' σ',
    (feed (pairHook hook) σ (ys.zip (List.range' size ys.length)) = (σ', none) ∧
      size + ys.length ≤ cap ∧ (∀ y ∈ ys, clones cl dat y = true) ∧ Grown f s g' grown ∧ g'.data = g.data ++ copies cl dat ys ∧
      cont (g', σ') run) ∨
    (∃ s'' e m, run = .fail e (g', σ') ∧ Grown f s g' s'' ∧ (s'' = part m ∧ s''.size = size + m) ∧
      g'.data = g.data ++ copies cl dat (ys.take m) ∧
      Failed cap size (clones cl dat) (pairHook hook) (ys.zip (List.range' size ys.length)) σ σ' e m)

section
variable (hsrc : SrcOk src (fun g => ∃ s', Grown f s g s') trOf E dat)
include hsrc

theorem mid_close {g : Forest T} {s' : Shape} (hg : Grown f s g s') {cur y : Nat} (hcur : s'.alive cur = true)
    {done L : List (Ev Nat)} (hE : E = done ++ .cls y :: L) (i F : Nat) (σ : S) :
    cloneMid cap cl src hook I (i + 1) F cur (trOf (.cls y :: L)) (g, σ) =
      match s'.parent cur with
      | some p => cloneMid cap cl src hook I i F p (trOf L) (g, σ)
      | none => .ok (cur, trOf L) (g, σ) := by
  have hn := hsrc.next g ⟨s', hg⟩ done _ L hE
  have hl := (hg.models.agrees.live_iff hg.models.valid cur).2 hcur
  have hp : (g.hier.get cur).getParent = .ok (s'.parent cur) :=
    hg.models.agrees.getParent_get hg.models.valid hcur
  have hnb : ∀ msg, Forest.onHier (T := T) (Hier.nbrOf cur msg) g = .ok (g.hier.get cur) g := fun msg =>
    onHier_ok (nbrOf_live hl msg)
  cases hpp : s'.parent cur with
  | some p =>
    have : Forest.cloneNextNode cap cl src (i + 1) cur (trOf (.cls y :: L)) g =
        Forest.cloneNextNode cap cl src i p (trOf L) g := by
      rw [Forest.cloneNextNode]
      simp only [M.run_bind, M.read, hn, hnb, hp, hpp]
    have this' : Forest.onForest (Forest.cloneNextNode cap cl src (i + 1) cur (trOf (.cls y :: L))) (g, σ) =
        Forest.onForest (Forest.cloneNextNode cap cl src i p (trOf L)) (g, σ) := by
      simp only [Forest.onForest, M.zoom, this]
    unfold cloneMid
    simp only [M.run_bind, this']
  | none =>
    have : Forest.cloneNextNode cap cl src (i + 1) cur (trOf (.cls y :: L)) g =
        .ok (none, cur, trOf L) g := by
      rw [Forest.cloneNextNode]
      simp only [M.run_bind, M.read, hn, hnb, hp, hpp, M.run_pure]
    unfold cloneMid
    simp only [M.run_bind, onForest_run this, M.run_pure]

theorem mid_open {g : Forest T} {s' : Shape} (hg : Grown f s g s') {cur y : Nat} (hcs : s.size ≤ cur)
    (hcur : s'.alive cur = true) {done L : List (Ev Nat)} (hE : E = done ++ .opn y :: L) (i F : Nat) (σ : S) :
    ∃ d, dat y = some d ∧
    ((cl d = none ∧ cloneMid cap cl src hook I (i + 1) F cur (trOf (.opn y :: L)) (g, σ) =
        .fail clonePanic (g, σ)) ∨
     ∃ d', cl d = some d' ∧
    ((cap ≤ s'.size ∧ cloneMid cap cl src hook I (i + 1) F cur (trOf (.opn y :: L)) (g, σ) =
        .fail overflow (g, σ)) ∨
     (s'.size < cap ∧ ∃ g', Grown f s g' (s'.addChild' cur) ∧ g'.data = g.data ++ [some d'] ∧
      cloneMid cap cl src hook I (i + 1) F cur (trOf (.opn y :: L)) (g, σ) =
        match hook σ y s'.size with
        | .error σ' => .fail (.panic "add_mapping panicked") (g', σ')
        | .ok σ' => Forest.cloneLoop cap cl src hook I F s'.size (trOf L) (g', σ')))) := by
  have hn := hsrc.next g ⟨s', hg⟩ done _ L hE
  obtain ⟨d, hd, hd'⟩ := hsrc.data g ⟨s', hg⟩ y (by rw [hE]; simp)
  refine ⟨d, hd, ?_⟩
  cases hcl : cl d with
  | none =>
    left
    refine ⟨rfl, ?_⟩
    have hcd : Forest.clonedData cl (src.data g) y = .error clonePanic := by
      simp [Forest.clonedData, hd', hcl, clonePanic]
    have : Forest.cloneNextNode cap cl src (i + 1) cur (trOf (.opn y :: L)) g = .fail clonePanic g := by
      rw [Forest.cloneNextNode]
      simp only [M.run_bind, M.read, hn, hcd]
    unfold cloneMid
    simp only [M.run_bind, onForest_fail this]
  | some d' =>
  right
  refine ⟨d', rfl, ?_⟩
  have hcd : Forest.clonedData cl (src.data g) y = .ok d' := by
    simp [Forest.clonedData, hd', hcl]
  by_cases hc : s'.size < cap
  · right
    obtain ⟨g', h1, h2, h3⟩ := hg.addChild hcs hcur hc d'
    refine ⟨hc, g', h2, h3, ?_⟩
    have : Forest.cloneNextNode cap cl src (i + 1) cur (trOf (.opn y :: L)) g =
        .ok (some y, s'.size, trOf L) g' := by
      rw [Forest.cloneNextNode]
      simp only [M.run_bind, M.read, hn, hcd, h1, M.run_pure]
    unfold cloneMid
    simp only [M.run_bind, onForest_run this, Forest.callMap]
    cases hook σ y s'.size <;> rfl
  · left
    refine ⟨by omega, ?_⟩
    have : Forest.cloneNextNode cap cl src (i + 1) cur (trOf (.opn y :: L)) g = .fail overflow g := by
      rw [Forest.cloneNextNode]
      simp only [M.run_bind, M.read, hn, hcd,
        createInsert_full hg.models (by omega : cap ≤ s'.size) d' (dest := .lastChildOf cur) hcur]
    unfold cloneMid
    simp only [M.run_bind, onForest_fail this]

end

theorem Grown.fresh {g : Forest T} {s' : Shape} (hg : Grown f s g s') : s'.Fresh := hg.models.valid.fresh

/-- Fuel suffices for the remaining events. -/
structure Fuel (I i F n : Nat) : Prop where
  outer : n < I
  inner : n < i
  loop : n < F

/-- Continuation of an outcome: the loop goes on with the remaining events. -/
def GoesOn (cap : Nat) (cl : T → Option T) (src : Forest.CloneSrc T τ) (hook : Forest.MapHook S) (I : Nat)
    (trOf : List (Ev Nat) → τ) (p : Nat) (L : List (Ev Nat)) (st : Forest T × S)
    (run : Res (Forest T × S) (Nat × τ)) : Prop :=
  ∃ i F, Fuel I i F L.length ∧ run = cloneMid cap cl src hook I i F p (trOf L) st

mutual
theorem clone_tree (hsrc : SrcOk src (fun g => ∃ s', Grown f s g s') trOf E dat) :
    ∀ (t : Tree Nat) (g : Forest T) (s' : Shape) (p i F : Nat) (σ : S) (done L : List (Ev Nat)),
    E = done ++ t.events ++ L → Grown f s g s' → s.size ≤ p → s'.alive p = true → s'.size ≤ cap →
    Fuel I i F (t.events ++ L).length →
    Outcome f s cap cl hook dat t.preorder (Tree.graft s' p t) (fun m => Tree.graftL s' p (t.trunc m)) g s'.size σ
      (cloneMid cap cl src hook I i F p (trOf (t.events ++ L)) (g, σ))
      (GoesOn cap cl src hook I trOf p L)
  | .node y ts, g, s', p, i, F, σ, done, L, hE, hg, hp, hpa, hcap, hfuel => by
    have hE1 : E = done ++ .opn y :: (Tree.eventsL ts ++ .cls y :: L) := by
      rw [hE]; simp [Tree.events]
    have hev : (Tree.node y ts).events ++ L = .opn y :: (Tree.eventsL ts ++ .cls y :: L) := by
      simp [Tree.events]
    have hlen : (((Tree.node y ts).events) ++ L).length = (Tree.eventsL ts ++ .cls y :: L).length + 1 := by
      rw [hev]; rfl
    rw [hlen] at hfuel
    obtain ⟨hI, hi, hF⟩ := hfuel
    obtain ⟨i, rfl⟩ : ∃ k, i = k + 1 := ⟨i - 1, by omega⟩
    obtain ⟨F, rfl⟩ : ∃ k, F = k + 1 := ⟨F - 1, by omega⟩
    rw [hev]
    obtain ⟨d, hd, h⟩ := mid_open (cap := cap) (cl := cl) (hook := hook) (I := I) hsrc hg hp hpa hE1 i (F + 1) σ
    rcases h with ⟨hcl, hrun⟩ | ⟨d', hcl, h⟩
    · refine ⟨g, σ, .inr ⟨s', clonePanic, 0, hrun, hg, ⟨rfl, rfl⟩, by simp [copies], ?_⟩⟩
      exact .clone 0 (by rw [List.take_zero]; rfl) (.inl rfl) (by simp)
        ⟨(y, s'.size), by simp [Tree.preorder, List.range'_succ], by simp [clones, hd, hcl]⟩
    have hfine : clones cl dat y = true := by simp [clones, hd, hcl]
    rcases h with ⟨hfull, hrun⟩ | ⟨hc, g1, hg1, hd1, hrun⟩
    · refine ⟨g, σ, .inr ⟨s', overflow, 0, hrun, hg, ⟨rfl, rfl⟩, by simp [copies], ?_⟩⟩
      have := Failed.full (cap := cap) (size := s'.size) (hook := pairHook hook)
        (pairs := (Tree.node y ts).preorder.zip (List.range' s'.size (Tree.node y ts).preorder.length))
        (σ := σ) (σ' := σ) (by simp [Tree.preorder]; omega)
        (by rw [show cap - s'.size = 0 by omega]; rfl)
        (fine := clones cl dat)
        (by rw [show cap - s'.size = 0 by omega]; simp [Tree.preorder, List.range'_succ, hfine])
      rw [show cap - s'.size = 0 by omega] at this
      exact this
    have hpairs : (Tree.node y ts).preorder.zip (List.range' s'.size (Tree.node y ts).preorder.length) =
        (y, s'.size) :: (Tree.preorderL ts).zip (List.range' (s'.size + 1) (Tree.preorderL ts).length) := by
      simp [Tree.preorder, List.range'_succ]
    cases hh : hook σ y s'.size with
    | error σ' =>
      rw [hh] at hrun
      refine ⟨g1, σ', .inr ⟨_, _, 1, hrun, hg1, ⟨by simp [Tree.trunc, Tree.truncL_zero, Tree.graftL, Tree.graft], rfl⟩, ?_, ?_⟩⟩
      · rw [hd1]; simp [copies, Tree.preorder, hd, hcl]
      · refine Failed.hook (cap := cap) 0 ?_ (by rw [hpairs]; simp) (by omega) (by rw [hpairs]; simp [hfine])
        rw [hpairs]; simp [feed, pairHook, hh]
    | ok σ1 =>
      rw [hh] at hrun
      simp only [cloneLoop_succ] at hrun
      have hsz1 : (s'.addChild' p).size = s'.size + 1 := rfl
      have hal1 : (s'.addChild' p).alive s'.size = true := by simp [Shape.addChild', upd]
      obtain ⟨g2, σ2, h2⟩ := clone_forest hsrc ts g1 (s'.addChild' p) s'.size I F σ1 (done ++ [.opn y])
        (.cls y :: L) (by rw [hE1]; simp) hg1 hg.size hal1 (by rw [hsz1]; omega) ⟨by omega, by omega, by omega⟩
      rw [hsz1] at h2
      have hf0 : feed (pairHook hook) σ [(y, s'.size)] = (σ1, none) := by simp [feed, pairHook, hh]
      rcases h2 with ⟨hfe, hca, hfi, hgr, hda, i2, F2, hfu2, hrun2⟩ | ⟨s'', e, m, hrun2, hgr, ⟨hpt, hsz⟩, hda, hfail⟩
      · refine ⟨g2, σ2, .inl ⟨?_, ?_, ?_, hgr, ?_, ?_⟩⟩
        · rw [hpairs, ← List.singleton_append, feed_append, hf0]; simp [hfe]
        · simp only [Tree.preorder, List.length_cons]; omega
        · simp only [Tree.preorder, List.mem_cons, forall_eq_or_imp]; exact ⟨hfine, hfi⟩
        · rw [hda, hd1]; simp [copies, Tree.preorder, hd, hcl]
        · -- the closing event
          obtain ⟨hI2, hi2, hF2⟩ := hfu2
          simp only [List.length_cons] at hI2 hi2 hF2
          obtain ⟨i2, rfl⟩ : ∃ k, i2 = k + 1 := ⟨i2 - 1, by omega⟩
          have hgs := Tree.graftL_spec ts (s'.addChild' p) s'.size hg1.fresh (by rw [hsz1]; omega)
          have hpar : (Tree.graftL (s'.addChild' p) s'.size ts).parent s'.size = some p := by
            rw [hgs.2.2.1.parent _ (by rw [hsz1]; omega)]; simp [Shape.addChild', upd]
          have hal2 : (Tree.graftL (s'.addChild' p) s'.size ts).alive s'.size = true := by
            rw [hgs.2.2.1.alive _ (by rw [hsz1]; omega)]; exact hal1
          have hcl := mid_close (cap := cap) (cl := cl) (hook := hook) (I := I) hsrc hgr hal2
            (done := done ++ .opn y :: Tree.eventsL ts) (y := y) (L := L) (by rw [hE1]; simp) i2 F2 σ2
          rw [hpar] at hcl
          exact ⟨i2, F2, ⟨by omega, by omega, by omega⟩, by rw [hrun, hrun2, hcl]⟩
      · refine ⟨g2, σ2, .inr ⟨s'', e, 1 + m, by rw [hrun, hrun2], hgr, ⟨by simp [hpt, Tree.trunc, Tree.graftL, Tree.graft], by omega⟩, ?_, ?_⟩⟩
        · rw [hda, hd1]; simp [copies, Tree.preorder, hd, hcl, Nat.add_comm 1 m]
        · rw [hpairs]
          exact Failed.after (a := [(y, s'.size)]) hf0 (by simp; omega) (by simp [hfine]) hfail
theorem clone_forest (hsrc : SrcOk src (fun g => ∃ s', Grown f s g s') trOf E dat) :
    ∀ (ts : List (Tree Nat)) (g : Forest T) (s' : Shape) (p i F : Nat) (σ : S) (done L : List (Ev Nat)),
    E = done ++ Tree.eventsL ts ++ L → Grown f s g s' → s.size ≤ p → s'.alive p = true → s'.size ≤ cap →
    Fuel I i F (Tree.eventsL ts ++ L).length →
    Outcome f s cap cl hook dat (Tree.preorderL ts) (Tree.graftL s' p ts) (fun m => Tree.graftL s' p (Tree.truncL m ts)) g s'.size σ
      (cloneMid cap cl src hook I i F p (trOf (Tree.eventsL ts ++ L)) (g, σ))
      (GoesOn cap cl src hook I trOf p L)
  | [], g, s', p, i, F, σ, done, L, hE, hg, hp, hpa, hcap, hfuel => by
    refine ⟨g, σ, .inl ⟨rfl, by simpa [Tree.preorderL] using hcap, by simp [Tree.preorderL], hg, by simp [copies, Tree.preorderL], i, F, hfuel, rfl⟩⟩
  | t :: ts, g, s', p, i, F, σ, done, L, hE, hg, hp, hpa, hcap, hfuel => by
    have hev : Tree.eventsL (t :: ts) ++ L = t.events ++ (Tree.eventsL ts ++ L) := by simp [Tree.eventsL]
    rw [hev] at hfuel ⊢
    obtain ⟨g1, σ1, h1⟩ := clone_tree hsrc t g s' p i F σ done (Tree.eventsL ts ++ L)
      (by rw [hE]; simp [Tree.eventsL]) hg hp hpa hcap hfuel
    have hplt : p < s'.size := hg.models.valid.alive_lt p hpa
    have hgs := Tree.graft_spec t s' p hg.fresh hplt
    have hlen : t.preorder.length = t.count := Tree.length_preorder t
    have hpairs : (Tree.preorderL (t :: ts)).zip (List.range' s'.size (Tree.preorderL (t :: ts)).length) =
        t.preorder.zip (List.range' s'.size t.preorder.length) ++
        (Tree.preorderL ts).zip (List.range' (s'.size + t.preorder.length) (Tree.preorderL ts).length) := by
      simp only [Tree.preorderL, List.length_append]
      rw [← List.range'_append_1, List.zip_append (by simp)]
    have hplen : (t.preorder.zip (List.range' s'.size t.preorder.length)).length = t.preorder.length := by simp
    rcases h1 with ⟨hfe, hca, hfi, hgr, hda, i2, F2, hfu2, hrun⟩ | ⟨s'', e, m, hrun, hgr, ⟨hpt, hsz⟩, hda, hfail⟩
    · obtain ⟨g2, σ2, h2⟩ := clone_forest hsrc ts g1 (Tree.graft s' p t) p i2 F2 σ1 (done ++ t.events) L
        (by rw [hE]; simp [Tree.eventsL]) hgr hp (by rw [hgs.2.2.1.alive p hplt]; exact hpa)
        (by rw [hgs.1]; omega) hfu2
      rw [hgs.1, ← hlen] at h2
      rcases h2 with ⟨hfe2, hca2, hfi2, hgr2, hda2, i3, F3, hfu3, hrun2⟩ | ⟨s'', e, m, hrun2, hgr2, ⟨hpt, hsz⟩, hda2, hfail⟩
      · refine ⟨g2, σ2, .inl ⟨?_, ?_, ?_, hgr2, ?_, i3, F3, hfu3, by rw [hrun, hrun2]⟩⟩
        · rw [hpairs, feed_append, hfe]; simp [hfe2]
        · simp only [Tree.preorderL, List.length_append]; omega
        · intro y hy
          simp only [Tree.preorderL, List.mem_append] at hy
          exact hy.elim (hfi y) (hfi2 y)
        · rw [hda2, hda]; simp [copies, Tree.preorderL]
      · refine ⟨g2, σ2, .inr ⟨s'', e, t.preorder.length + m, by rw [hrun, hrun2], hgr2, ⟨?_, by omega⟩, ?_, ?_⟩⟩
        · rw [hpt]
          simp only [Tree.truncL]
          rw [Tree.trunc_all t (by omega), hlen, Nat.add_sub_cancel_left]; rfl
        · rw [hda2, hda]; simp [copies, Tree.preorderL, List.take_length_add_append]
        · rw [hpairs]
          have hfail' : Failed cap (s'.size + (t.preorder.zip (List.range' s'.size t.preorder.length)).length)
              (clones cl dat) (pairHook hook) ((Tree.preorderL ts).zip (List.range' (s'.size + t.preorder.length)
                (Tree.preorderL ts).length)) σ1 σ2 e m := by rw [hplen]; exact hfail
          have := Failed.after hfe (by rw [hplen]; exact hca) (fun q hq => hfi _ (List.of_mem_zip hq).1) hfail'
          rwa [hplen] at this
    · have hm' : m ≤ t.preorder.length := by
        cases hfail with
        | hook k _ h _ _ => simp at h; omega
        | full h _ _ => simp at h; omega
        | clone _ _ _ _ h =>
          obtain ⟨q, hq, _⟩ := h
          have := (List.getElem?_eq_some_iff.1 hq).1
          simp at this; omega
      refine ⟨g1, σ1, .inr ⟨s'', e, m, hrun, hgr, ⟨?_, hsz⟩, ?_, ?_⟩⟩
      · rw [hpt]
        simp only [Tree.truncL]
        rw [show m - t.count = 0 by omega, Tree.truncL_zero, List.append_nil]
      · rw [hda]
        simp only [Tree.preorderL, List.take_append_of_le_length hm']
      · rw [hpairs]; exact hfail.append
end

end loop

end Treena

namespace Treena
open Hier Shape
variable {T : Type} {S τ : Type}

theorem Grown.entry {f g : Forest T} {s s' : Shape} (hm : Models f s) (hg : Grown f s g s') {x : Nat}
    (hx : x < s.size) : s'.entry x = s.entry x := by
  unfold Shape.entry
  rw [hg.alive x hx]
  split
  · have hs : s'.sibs x = s.sibs x := by
      unfold Shape.sibs
      rw [hg.parent x hx]
      cases h : s.parent x with
      | none => rfl
      | some p => exact hg.kids p (hm.valid.alive_lt p (hm.valid.parent_alive x p h).2)
    unfold Shape.link Shape.prev Shape.next Shape.first
    rw [hs, hg.parent x hx, hg.kids x hx]
  · rfl

theorem Grown.get {f g : Forest T} {s s' : Shape} (hm : Models f s) (hg : Grown f s g s') {x : Nat}
    (hx : x < s.size) : g.hier.get x = f.hier.get x := by
  rw [hg.models.agrees.2, hm.agrees.2, hg.entry hm hx]

theorem Grown.dataList {f g : Forest T} {s s' : Shape} (hm : Models f s) (hg : Grown f s g s') {x : Nat}
    (hx : x < s.size) : g.data[x]? = f.data[x]? := by
  have := hg.data x hx
  unfold Forest.getData at this
  have h1 : x < g.data.length := by rw [hg.models.dataLen]; have := hg.size; omega
  have h2 : x < f.data.length := by rw [hm.dataLen]; exact hx
  rw [List.getElem?_eq_getElem h1, List.getElem?_eq_getElem h2] at this ⊢
  simpa using this

theorem getData_list {f : Forest T} {y : Nat} {d : T} (hd : f.getData y = some d) :
    f.data[y]? = some (some d) := by
  unfold Forest.getData at hd
  cases e : f.data[y]? with
  | none => rw [e] at hd; cases hd
  | some o => rw [e] at hd; exact congrArg some hd

theorem local_src {f : Forest T} {s : Shape} {t : Tree Nat} (hm : Models f s) (ht : Tree.IsTree s.kids t)
    (hx : s.alive t.root = true) :
    SrcOk (T := T) Forest.localSrc (fun g => ∃ s', Grown f s g s')
      (fun L => { next := L.head?, root := t.root }) t.events f.getData where
  next := by
    rintro g ⟨s', hg⟩ done e L hE
    have hlt : e.node < s.size := hm.valid.alive_lt _
      (Tree.mem_alive hm.valid ht hx (Tree.node_mem_preorder (by rw [hE]; simp)))
    simp only [Forest.localSrc, Safe.next, List.head?_cons]
    rcases events_split hm ht hx hE with ⟨rfl, rfl⟩ | ⟨hne, e', L', rfl, hst⟩
    · rw [safe_last]; rfl
    · rw [stepFwd_congr (hg.get hm hlt).symm] at hst
      rw [safe_of_dft hne hst]; rfl
  data := by
    rintro g ⟨s', hg⟩ y hy
    have hya : s.alive y = true := Tree.mem_alive hm.valid ht hx (Tree.node_mem_preorder hy)
    obtain ⟨d, hd⟩ := data_some hm hya
    refine ⟨d, hd, ?_⟩
    simp only [Forest.localSrc]
    rw [hg.dataList hm (hm.valid.alive_lt _ hya)]
    exact getData_list hd

theorem foreign_src {f fs : Forest T} {s ss : Shape} {t : Tree Nat} (hm : Models fs ss)
    (ht : Tree.IsTree ss.kids t) (hx : ss.alive t.root = true) :
    SrcOk (T := T) (Forest.foreignSrc fs) (fun g => ∃ s', Grown f s g s') ends t.events fs.getData where
  next := by
    rintro g _ done e L hE
    have w := dft_walk hm ht hx
    rw [hE] at w
    have w := Walk.right w
    exact w.deNext
  data := by
    rintro g _ y hy
    have hya : ss.alive y = true := Tree.mem_alive hm.valid ht hx (Tree.node_mem_preorder hy)
    obtain ⟨d, hd⟩ := data_some hm hya
    refine ⟨d, hd, ?_⟩
    simp only [Forest.foreignSrc]
    exact getData_list hd

theorem grown_addRoot {f : Forest T} {s : Shape} (hm : Models f s) {cap : Nat} (hcap : s.size < cap) (d : T) :
    ∃ g, Forest.createRoot cap d f = .ok s.size g ∧ Grown f s g s.addRoot ∧ g.data = f.data ++ [some d] := by
  obtain ⟨g, h1, h2, h3⟩ := createRoot_models hm hcap d
  refine ⟨g, h1, ⟨h2, by simp [Shape.addRoot], ?_, fun _ _ => rfl, fun _ _ => rfl, ?_⟩, ?_⟩
  · intro x hx; simp only [Shape.addRoot, upd]; rw [if_neg (by omega)]
  · intro x hx; rw [h3 x, if_neg (by omega)]
  · apply data_push
    · rw [h2.dataLen, hm.dataLen]; rfl
    · intro x; rw [h3 x, hm.dataLen]

/-- The part common to the two clone functions: root, callback, loop. -/
def cloneBody (cap : Nat) (cl : T → Option T) (hook : Forest.MapHook S)
    (srcRoot : Nat) (d : T) (rest : Nat → M (Forest T × S) Nat) : M (Forest T × S) Nat := do
  let d ← M.read fun _ => expect (cl d) "T::clone panicked"
  let rootId ← Forest.onForest (Forest.createRoot cap d)
  Forest.callMap hook srcRoot rootId
  rest rootId

theorem copied_graft {f g0 g : Forest T} {s : Shape} {cl : T → Option T} {dat : Nat → Option T} {y : Nat} {d d' : T}
    {ts : List (Tree Nat)} (hm : Models f s) (hd : dat y = some d) (hcl : cl d = some d')
    (hg0 : Grown f s g0 s.addRoot) (hd0 : g0.data = f.data ++ [some d'])
    (hgr : Grown f s g (Tree.graftL s.addRoot s.size ts)) (hda : g.data = g0.data ++ copies cl dat (Tree.preorderL ts)) :
    Copied f s cl dat (.node y ts) g (Tree.graftL s.addRoot s.size ts) := by
  have hsz : s.addRoot.size = s.size + 1 := rfl
  have hal : s.addRoot.alive s.size = true := addRoot_alive_self s
  have hgs := Tree.graftL_spec ts s.addRoot s.size hg0.models.valid.fresh (by rw [hsz]; omega)
  refine ⟨hgr, ?_, ?_, ?_, ?_, ?_⟩
  · rw [hgs.1, hsz]; simp only [Tree.count]; omega
  · simp only [Tree.number, Tree.IsTree]
    refine ⟨?_, by have := hgs.2.2.2.2.1; rwa [hsz] at this⟩
    rw [hgs.2.2.2.1, hsz]
    show s.kids s.size ++ _ = _
    rw [hm.valid.dead_kids hm.valid.dead_size]; rfl
  · rw [hgs.2.2.1.parent _ (by rw [hsz]; omega)]
    exact hm.valid.dead_parent hm.valid.dead_size
  · intro x hx1 hx2
    by_cases e : x = s.size
    · subst e; rw [hgs.2.2.1.alive _ (by rw [hsz]; omega)]; exact hal
    · exact hgs.2.2.2.2.2 x (by rw [hsz]; omega) hx2
  · rw [hda, hd0]; simp [copies, Tree.preorder, hd, hcl]

theorem clone_core {f : Forest T} {s : Shape} {cap : Nat} {cl : T → Option T} {src : Forest.CloneSrc T τ}
    {hook : Forest.MapHook S} {trOf : List (Ev Nat) → τ} {dat : Nat → Option T} {t : Tree Nat} {d : T}
    {rest : Nat → M (Forest T × S) Nat} (hm : Models f s)
    (hsrc : SrcOk src (fun g => ∃ s', Grown f s g s') trOf t.events dat) (hd : dat t.root = some d)
    (hrest : ∀ g, Grown f s g s.addRoot → ∃ I J, t.events.length < I ∧ t.events.length < J ∧ ∀ σ,
      (∀ st, Forest.cloneLoop cap cl src hook I J s.size (trOf t.events.tail) (g, σ) = .ok (s.size, trOf []) st →
        rest s.size (g, σ) = .ok s.size st) ∧
      (∀ e st, Forest.cloneLoop cap cl src hook I J s.size (trOf t.events.tail) (g, σ) = .fail e st →
        rest s.size (g, σ) = .fail e st)) (σ : S) :
    CloneOutcome f s cap cl hook dat t σ (cloneBody cap cl hook t.root d rest (f, σ)) := by
  cases t with
  | node y ts =>
  simp only [Tree.root] at hd ⊢
  cases hcl : cl d with
  | none =>
    refine ⟨f, σ, s, .inr ⟨clonePanic, 0, ?_, ⟨hm, Nat.le_refl _, fun _ _ => rfl, fun _ _ => rfl, fun _ _ => rfl, fun _ _ => rfl⟩, rfl, by simp [copies], by simp [Tree.trunc], ?_⟩⟩
    · unfold cloneBody
      rw [M.run_bind]; simp only [M.read, hcl, expect_none]; rfl
    · exact .clone 0 (by rw [List.take_zero]; rfl) (.inl rfl) (by simp)
        ⟨(y, s.size), by simp [Tree.preorder, Tree.count, List.range'_succ], by simp [clones, hd, hcl]⟩
  | some d' =>
  have hfine : clones cl dat y = true := by simp [clones, hd, hcl]
  by_cases hcap : s.size < cap
  swap
  · have hc : cap - s.size = 0 := by omega
    refine ⟨f, σ, s, .inr ⟨overflow, 0, ?_, ⟨hm, Nat.le_refl _, fun _ _ => rfl, fun _ _ => rfl, fun _ _ => rfl, fun _ _ => rfl⟩, rfl, by simp [copies], by simp [Tree.trunc], ?_⟩⟩
    · unfold cloneBody
      rw [M.run_bind]
      simp only [M.read, hcl, expect_some]
      rw [M.run_bind, onForest_fail (createRoot_full hm (by omega) d')]; rfl
    · have := Failed.full (cap := cap) (size := s.size) (hook := pairHook hook)
        (pairs := (Tree.node y ts).preorder.zip (List.range' s.size (Tree.node y ts).count))
        (σ := σ) (σ' := σ) (by rw [← Tree.length_preorder]; simp [Tree.preorder]; omega)
        (by rw [hc]; rfl) (fine := clones cl dat)
        (by rw [hc]; simp [Tree.preorder, Tree.count, List.range'_succ, hfine])
      rwa [hc] at this
  obtain ⟨g0, hr, hg0, hd0⟩ := grown_addRoot hm hcap d'
  have hrun : cloneBody cap cl hook y d rest (f, σ) =
      match hook σ y s.size with
      | .error σ' => .fail (.panic "add_mapping panicked") (g0, σ')
      | .ok σ' => rest s.size (g0, σ') := by
    unfold cloneBody
    rw [M.run_bind]
    simp only [M.read, hcl, expect_some]
    rw [M.run_bind, onForest_run hr]
    simp only [M.run_bind, Forest.callMap]
    cases hook σ y s.size <;> rfl
  have hpairs : (Tree.node y ts).preorder.zip (List.range' s.size (Tree.node y ts).count) =
      (y, s.size) :: (Tree.preorderL ts).zip (List.range' (s.size + 1) (Tree.preorderL ts).length) := by
    simp [Tree.preorder, Tree.count, List.range'_succ, Tree.length_preorderL]
  rw [hrun]
  cases hh : hook σ y s.size with
  | error σ' =>
    refine ⟨g0, σ', _, .inr ⟨_, 1, rfl, hg0, rfl, ?_, ?_, ?_⟩⟩
    · rw [hd0]; simp [copies, Tree.preorder, hd, hcl]
    · intro t' ht'
      simp only [Tree.trunc, Nat.sub_self, Tree.truncL_zero, Nat.one_ne_zero, if_false, List.mem_singleton] at ht'
      subst ht'
      exact copied_graft hm hd hcl hg0 hd0 hg0 (ts := []) (by simp [copies, Tree.preorderL])
    · refine Failed.hook (cap := cap) 0 ?_ (by rw [hpairs]; simp) (by omega) (by rw [hpairs]; simp [hfine])
      rw [hpairs]; simp [feed, pairHook, hh]
  | ok σ1 =>
    obtain ⟨I, J, hI, hJ, hrest⟩ := hrest g0 hg0
    obtain ⟨hr1, hr2⟩ := hrest σ1
    have hev : (Tree.node y ts).events.tail = Tree.eventsL ts ++ [.cls y] := by simp [Tree.events]
    have hEe : (Tree.node y ts).events = [.opn y] ++ Tree.eventsL ts ++ [.cls y] := by simp [Tree.events]
    rw [hev] at hr1 hr2
    have hlenE : (Tree.node y ts).events.length = (Tree.eventsL ts ++ [Ev.cls y]).length + 1 := by
      rw [hEe]; simp
    rw [hlenE] at hI hJ
    obtain ⟨F, hF⟩ : ∃ F, J = F + 1 := ⟨J - 1, by omega⟩
    have hloop : Forest.cloneLoop cap cl src hook I J s.size (trOf (Tree.eventsL ts ++ [.cls y])) (g0, σ1) =
        cloneMid cap cl src hook I I F s.size (trOf (Tree.eventsL ts ++ [.cls y])) (g0, σ1) := by
      have : Forest.cloneLoop cap cl src hook I J = Forest.cloneLoop cap cl src hook I (F + 1) := by rw [← hF]
      rw [this, cloneLoop_succ]
    rw [hloop] at hr1 hr2
    have hsz : s.addRoot.size = s.size + 1 := rfl
    have hal : s.addRoot.alive s.size = true := addRoot_alive_self s
    obtain ⟨g2, σ2, h2⟩ := clone_forest (cap := cap) (cl := cl) (hook := hook) (I := I) hsrc ts g0 s.addRoot
      s.size I F σ1 [.opn y] [.cls y] hEe hg0 (Nat.le_refl _) hal (by rw [hsz]; omega) ⟨by omega, by omega, by omega⟩
    have hf0 : feed (pairHook hook) σ [(y, s.size)] = (σ1, none) := by simp [feed, pairHook, hh]
    rw [hsz] at h2
    rcases h2 with ⟨hfe, hca, hfi, hgr, hda, i2, F2, hfu2, hrun2⟩ | ⟨s'', e, m, hrun2, hgr, ⟨hpt, hsz'⟩, hda, hfail⟩
    · have hgs := Tree.graftL_spec ts s.addRoot s.size hg0.models.valid.fresh (by rw [hsz]; omega)
      refine ⟨g2, σ2, Tree.graftL s.addRoot s.size ts, .inl ⟨?_, ?_, ?_, copied_graft hm hd hcl hg0 hd0 hgr hda, ?_⟩⟩
      · rw [hpairs, ← List.singleton_append, feed_append, hf0]; simp [hfe]
      · rw [Tree.length_preorderL] at hca
        simp only [Tree.count]; omega
      · simp only [Tree.preorder, List.mem_cons, forall_eq_or_imp]; exact ⟨hfine, hfi⟩
      · apply hr1
        obtain ⟨hI2, hi2, hF2⟩ := hfu2
        simp only [List.length_cons, List.length_nil] at hi2
        obtain ⟨i2, rfl⟩ : ∃ k, i2 = k + 1 := ⟨i2 - 1, by omega⟩
        have hal2 : (Tree.graftL s.addRoot s.size ts).alive s.size = true := by
          rw [hgs.2.2.1.alive _ (by rw [hsz]; omega)]; exact hal
        have hpar : (Tree.graftL s.addRoot s.size ts).parent s.size = none := by
          rw [hgs.2.2.1.parent _ (by rw [hsz]; omega)]
          exact hm.valid.dead_parent hm.valid.dead_size
        have hcl := mid_close (cap := cap) (cl := cl) (hook := hook) (I := I) hsrc hgr hal2
          (done := .opn y :: Tree.eventsL ts) (y := y) (L := []) (by rw [hEe]; simp) i2 F2 σ2
        rw [hpar] at hcl
        rw [hrun2, hcl]
    · refine ⟨g2, σ2, s'', .inr ⟨e, 1 + m, ?_, hgr, by omega, ?_, ?_, ?_⟩⟩
      · exact hr2 _ _ hrun2
      · rw [hda, hd0]; simp [copies, Tree.preorder, hd, hcl, Nat.add_comm 1 m]
      · intro t' ht'
        simp only [Tree.trunc, Nat.add_sub_cancel_left, if_neg (show 1 + m ≠ 0 by omega), List.mem_singleton] at ht'
        subst ht'
        rw [hpt] at hgr ⊢
        exact copied_graft hm hd hcl hg0 hd0 hgr (by rw [hda, Tree.preorderL_truncL])
      · rw [hpairs]
        exact Failed.after (a := [(y, s.size)]) hf0 (by simp; omega) (by simp [hfine]) hfail

theorem events_tail_length (t : Tree Nat) : t.events.length = 2 * t.count := Tree.length_events t

theorem events_cons (t : Tree Nat) : t.events = .opn t.root :: t.events.tail := by
  cases t; simp [Tree.events, Tree.root]

theorem cloneLocal_spec {f : Forest T} {s : Shape} {cap : Nat} {cl : T → Option T} {hook : Forest.MapHook S}
    {t : Tree Nat} (hm : Models f s) (ht : Tree.IsTree s.kids t) (hx : s.alive t.root = true) (σ : S) :
    CloneOutcome f s cap cl hook f.getData t σ
      (Forest.cloneLocalTreeWithIdMapping cap cl hook t.root (f, σ)) := by
  obtain ⟨d, hd⟩ := data_some hm hx
  have hsrc := local_src hm ht hx
  have key : Forest.cloneLocalTreeWithIdMapping cap cl hook t.root (f, σ) =
      cloneBody cap cl hook t.root d (fun rootId => do
        let tr ← M.read fun p => Safe.new t.root p.1.hier
        let (_, tr) ← M.read fun p => Safe.next p.1.hier tr
        let (cur, _) ← Forest.cloneLoop cap cl Forest.localSrc hook (Forest.cloneFuel cap cap + 2 * s.size)
          (cap + 1 + 2 * s.size) rootId tr
        if cur ≠ rootId then
          M.panic "[consistency] all nodes including the root must have been closed"
        else pure rootId) (f, σ) := by
    rw [← cloneLocal_fuel hook t.root (2 * s.size) (2 * s.size)]
    unfold cloneLocalFueled cloneBody
    rw [M.run_bind]
    simp only [M.read, hd, expect_some]
  rw [key]
  refine clone_core hm hsrc hd ?_ σ
  intro g hg
  have h2 := Tree.count_le_size hm.valid ht hx
  have h3 : 0 < Forest.cloneFuel cap cap := by unfold Forest.cloneFuel; positivity
  refine ⟨Forest.cloneFuel cap cap + 2 * s.size, cap + 1 + 2 * s.size, by rw [Tree.length_events]; omega,
    by rw [Tree.length_events]; omega, ?_⟩
  intro σ1
  have hal : g.hier.isAlive t.root = true := by
    rw [hg.models.hierAlive]; exact addRoot_alive_of hx
  have hnext := hsrc.next g ⟨_, hg⟩ [] (.opn t.root) t.events.tail (events_cons t)
  simp only [Forest.localSrc, List.head?_cons] at hnext
  constructor
  · intro st h
    simp only [M.run_bind, M.read, Safe.new, hal, Bool.not_true, Bool.false_eq_true, if_false, hnext, h]
    simp
  · intro e st h
    simp only [M.run_bind, M.read, Safe.new, hal, Bool.not_true, Bool.false_eq_true, if_false, hnext, h]

theorem cloneForeign_spec {f fs : Forest T} {s ss : Shape} {cap : Nat} {cl : T → Option T} {hook : Forest.MapHook S}
    {t : Tree Nat} (hm : Models f s) (hms : Models fs ss) (ht : Tree.IsTree ss.kids t)
    (hx : ss.alive t.root = true) (σ : S) :
    CloneOutcome f s cap cl hook fs.getData t σ
      (Forest.cloneForeignTreeWithIdMapping cap cl hook fs t.root (f, σ)) := by
  obtain ⟨d, hd⟩ := data_some hms hx
  have hsrc := foreign_src (f := f) (s := s) hms ht hx
  have key : Forest.cloneForeignTreeWithIdMapping cap cl hook fs t.root (f, σ) =
      cloneBody cap cl hook t.root d (fun rootId => do
        let tr ← M.read fun _ => Dft.withToplevel t.root fs.hier
        let (_, tr) ← M.read fun _ => Dft.next fs.hier tr
        let (cur, tr) ← Forest.cloneLoop cap cl (Forest.foreignSrc fs) hook
          (Forest.cloneFuel cap fs.hier.nbrs.length + 2 * ss.size) (cap + 1 + 2 * ss.size) rootId tr
        if cur ≠ rootId then
          M.panic "[consistency] traversal must end with the closing of the destination root node"
        else do
          let (last, _) ← M.read fun _ => Dft.next fs.hier tr
          if last ≠ none then
            M.panic "[consistency] traversal must also end with the closing of the source root node"
          else pure rootId) (f, σ) := by
    rw [← cloneForeign_fuel hook fs t.root (2 * ss.size) (2 * ss.size)]
    unfold cloneForeignFueled cloneBody
    rw [M.run_bind]
    simp only [M.read, hd, expect_some]
  rw [key]
  refine clone_core hm hsrc hd ?_ σ
  intro g hg
  have h2 := Tree.count_le_size hms.valid ht hx
  have h3 : 0 < Forest.cloneFuel cap fs.hier.nbrs.length := by unfold Forest.cloneFuel; positivity
  refine ⟨Forest.cloneFuel cap fs.hier.nbrs.length + 2 * ss.size, cap + 1 + 2 * ss.size,
    by rw [Tree.length_events]; omega, by rw [Tree.length_events]; omega, ?_⟩
  intro σ1
  have hal : fs.hier.isAlive t.root = true := by rw [hms.hierAlive]; exact hx
  have hnext := hsrc.next g ⟨_, hg⟩ [] (.opn t.root) t.events.tail (events_cons t)
  have hst : ends (Ev.opn t.root :: t.events.tail) = some (.opn t.root, .cls t.root) := by
    rw [← events_cons, ends_events]
  simp only [Forest.foreignSrc, hst] at hnext
  constructor
  · intro st h
    simp only [M.run_bind, M.read, Dft.withToplevel, hal, Bool.not_true, Bool.false_eq_true, if_false, hnext, h]
    simp only [ends_nil, Dft.next, deNext, ne_eq, not_true, if_false, M.run_bind, M.read]
    rfl
  · intro e st h
    simp only [M.run_bind, M.read, Dft.withToplevel, hal, Bool.not_true, Bool.false_eq_true, if_false, hnext, h]

theorem cloneLocal_dead {f : Forest T} {cap : Nat} {cl : T → Option T} {hook : Forest.MapHook S} {x : Nat}
    (hx : f.isAlive x = false) (σ : S) :
    Forest.cloneLocalTreeWithIdMapping cap cl hook x (f, σ) =
      .fail (.panic "[consistency] the node must be alive") (f, σ) := by
  have : f.getData x = none := by
    have := getData_isSome_isAlive f x; rw [hx] at this; simpa using this
  unfold Forest.cloneLocalTreeWithIdMapping
  rw [M.run_bind]; simp only [M.read, this, expect_none]

end Treena
