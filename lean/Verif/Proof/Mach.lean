import Verif.Model.Release
import Verif.Proof.Bfs
/-! The arithmetic of `usize` is never noticed. -/

set_option autoImplicit false

namespace Treena

/-- `A` computes as the natural numbers do as long as results are at most `um`. -/
structure Arith.Exact (um : Nat) (A : Arith) : Prop where
  succ : ∀ d, d + 1 ≤ um → A.succ d = .ok (d + 1)
  pred : ∀ d, d + 1 ≤ um → A.pred (d + 1) = .ok d

theorem Arith.checked_exact (um : Nat) : (Arith.checked um).Exact um :=
  ⟨fun d h => by simp [Arith.checked, show d < um by omega], fun d _ => by simp [Arith.checked]⟩

theorem Arith.wrapping_exact (um : Nat) : (Arith.wrapping um).Exact um :=
  ⟨fun d h => by simp [Arith.wrapping, show d < um by omega], fun d _ => by simp [Arith.wrapping]⟩

namespace Tree
variable {α : Type}

mutual
theorem height_le_count : ∀ t : Tree α, t.height ≤ t.count
  | .node _ ts => by have := heightL_le_countL ts; simp only [height, count]; omega
theorem heightL_le_countL : ∀ ts : List (Tree α), heightL ts ≤ countL ts
  | [] => Nat.le_refl _
  | t :: ts => by have h1 := height_le_count t; have h2 := heightL_le_countL ts; simp only [heightL, countL]; omega
end

mutual
theorem devents_below : ∀ (t : Tree α) (d : Nat) (e : Ev α × Nat), e ∈ t.devents d → e.2 < d + t.height
  | .node a ts, d, e, h => by
    simp only [devents, List.mem_cons, List.mem_append, List.not_mem_nil, or_false] at h
    simp only [height]
    rcases h with h | h | h
    · subst h; simp only []; omega
    · have := deventsL_below ts (d + 1) e h; omega
    · subst h; simp only []; omega
theorem deventsL_below : ∀ (ts : List (Tree α)) (d : Nat) (e : Ev α × Nat), e ∈ deventsL d ts → e.2 < d + heightL ts
  | [], d, e, h => by simp [deventsL] at h
  | t :: ts, d, e, h => by
    simp only [deventsL, List.mem_append] at h
    simp only [heightL]
    rcases h with h | h
    · have := devents_below t d e h; omega
    · have := deventsL_below ts d e h; omega
end

theorem shallow_below (mx : Option Nat) (t : Tree α) (e : Ev α × Nat) (h : e ∈ t.shallow mx) : e.2 < t.height := by
  have := devents_below t 0 e ((shallow_sublist mx t).subset h); omega

end Tree

theorem height_le_size {T : Type} {f : Forest T} {s : Shape} (hm : Models f s) {t : Tree Nat} (ht : Tree.IsTree s.kids t)
    (hx : s.alive t.root = true) : t.height ≤ f.hier.nbrs.length := by
  have h1 := Tree.height_le_count t
  have h2 := Tree.count_le_size hm.valid ht hx
  have h3 := hm.agrees.1
  omega

namespace Mach
variable {T : Type} {f : Forest T} {s : Shape} {um : Nat} {A : Arith}

theorem stepFwd_exact (hA : A.Exact um) {h : Hier} {mx : Option Nat} {e e' : Ev Nat × Nat}
    (hs : Treena.Shallow.stepFwd h mx e = .ok (some e')) (he : e.2 ≤ um) (he' : e'.2 ≤ um) :
    Shallow.stepFwd A h mx e = .ok (some e') := by
  obtain ⟨ev, d⟩ := e
  cases ev with
  | opn id =>
    unfold Treena.Shallow.stepFwd at hs
    unfold Shallow.stepFwd
    by_cases hd : some d = mx
    · simpa only [hd, if_true] using hs
    · simp only [if_neg hd] at hs ⊢
      cases htn : travNbr h id with
      | error er => rw [htn] at hs; cases hs
      | ok nb =>
        simp only [htn] at hs ⊢
        cases hfc : nb.firstChild with
        | error er => rw [hfc] at hs; cases hs
        | ok o =>
          cases o with
          | none => simpa only [hfc] using hs
          | some c =>
            simp only [hfc] at hs ⊢
            injection hs with hs
            injection hs with hs
            subst hs
            rw [hA.succ d he']
  | cls id =>
    unfold Treena.Shallow.stepFwd at hs
    unfold Shallow.stepFwd
    cases htn : travNbr h id with
    | error er => simp only [htn] at hs; cases hs
    | ok nb =>
      simp only [htn] at hs ⊢
      cases hfc : nb.nextSibling with
      | error er => rw [hfc] at hs; cases hs
      | ok o =>
        cases o with
        | some c => simpa only [hfc] using hs
        | none =>
          simp only [hfc] at hs ⊢
          cases hp : nb.getParent with
          | error er => rw [hp] at hs; cases hs
          | ok po =>
            simp only [hp] at hs ⊢
            cases po with
            | none => simp at hs
            | some p =>
              simp only [expect_some] at hs ⊢
              cases d with
              | zero => simp [Treena.Shallow.depthPred] at hs
              | succ d => rw [hA.pred d he]; simpa only [Treena.Shallow.depthPred] using hs

theorem stepBack_exact (hA : A.Exact um) {h : Hier} {mx : Option Nat} {e e' : Ev Nat × Nat}
    (hs : Treena.Shallow.stepBack h mx e = .ok (some e')) (he : e.2 ≤ um) (he' : e'.2 ≤ um) :
    Shallow.stepBack A h mx e = .ok (some e') := by
  obtain ⟨ev, d⟩ := e
  cases ev with
  | cls id =>
    unfold Treena.Shallow.stepBack at hs
    unfold Shallow.stepBack
    by_cases hd : some d = mx
    · simpa only [hd, if_true] using hs
    · simp only [if_neg hd] at hs ⊢
      cases htn : travNbr h id with
      | error er => rw [htn] at hs; cases hs
      | ok nb =>
        simp only [htn] at hs ⊢
        cases hfc : nb.lastChild h with
        | error er => rw [hfc] at hs; cases hs
        | ok o =>
          cases o with
          | none => simpa only [hfc] using hs
          | some c =>
            simp only [hfc] at hs ⊢
            injection hs with hs
            injection hs with hs
            subst hs
            rw [hA.succ d he']
  | opn id =>
    unfold Treena.Shallow.stepBack at hs
    unfold Shallow.stepBack
    cases htn : travNbr h id with
    | error er => simp only [htn] at hs; cases hs
    | ok nb =>
      simp only [htn] at hs ⊢
      cases hfc : nb.prevSibling h with
      | error er => rw [hfc] at hs; cases hs
      | ok o =>
        cases o with
        | some c => simpa only [hfc] using hs
        | none =>
          simp only [hfc] at hs ⊢
          cases hp : nb.getParent with
          | error er => rw [hp] at hs; cases hs
          | ok po =>
            simp only [hp] at hs ⊢
            cases po with
            | none => simp at hs
            | some p =>
              simp only [expect_some] at hs ⊢
              cases d with
              | zero => simp [Treena.Shallow.depthPred] at hs
              | succ d => rw [hA.pred d he]; simpa only [Treena.Shallow.depthPred] using hs

/-- Walks whose depths are at most `um`. -/
structure Low (um : Nat) (f : Forest T) (mx : Option Nat) (L : List (Ev Nat × Nat)) : Prop where
  walk : ShWalk f mx L
  low : ∀ e ∈ L, e.2 ≤ um

theorem Low.tail {mx : Option Nat} {L : List (Ev Nat × Nat)} (w : Low um f mx L) : Low um f mx L.tail :=
  ⟨w.walk.tail, fun e he => w.low e (List.mem_of_mem_tail he)⟩

theorem Low.dropLast {mx : Option Nat} {L : List (Ev Nat × Nat)} (w : Low um f mx L) : Low um f mx L.dropLast :=
  ⟨w.walk.dropLast, fun e he => w.low e (List.dropLast_subset _ he)⟩

theorem chain_exact (hA : A.Exact um) {h : Hier} {mx : Option Nat} : ∀ L : List (Ev Nat × Nat),
    L.IsChain (StepRel (Treena.Shallow.stepFwd h mx) (Treena.Shallow.stepBack h mx)) → (∀ e ∈ L, e.2 ≤ um) →
    L.IsChain (StepRel (Shallow.stepFwd A h mx) (Shallow.stepBack A h mx))
  | [], _, _ => .nil
  | [_], _, _ => .singleton _
  | a :: b :: L, hc, hl => by
    rw [List.isChain_cons_cons] at hc ⊢
    have ha := hl a (by simp)
    have hb := hl b (by simp)
    exact ⟨⟨stepFwd_exact hA hc.1.1 ha hb, stepBack_exact hA hc.1.2 hb ha⟩,
      chain_exact hA (b :: L) hc.2 fun e he => hl e (List.mem_cons_of_mem _ he)⟩

theorem Low.mach (hA : A.Exact um) {mx : Option Nat} {L : List (Ev Nat × Nat)} (w : Low um f mx L) :
    Walk f (fun i => i.1.node) (Shallow.stepFwd A f.hier mx) (Shallow.stepBack A f.hier mx) L :=
  ⟨w.walk.nodup, chain_exact hA L w.walk.chain w.low, w.walk.alive⟩

theorem next_low (hA : A.Exact um) {mx : Option Nat} {L : List (Ev Nat × Nat)} (w : Low um f mx L) :
    Shallow.next A f.hier (shallowSt mx L) = .ok (L.head?, shallowSt mx L.tail) := by
  simp only [Shallow.next, shallowSt, (w.mach hA).deNext]

theorem shallowNext_low (hA : A.Exact um) {mx : Option Nat} {L : List (Ev Nat × Nat)} (w : Low um f mx L) :
    shallowNext A f (shallowSt mx L) = .ok (L.head?, shallowSt mx L.tail) := by
  unfold shallowNext
  rw [next_low hA w]
  exact emit_ok fun i hi => w.walk.alive i (List.mem_of_mem_head? (by simpa using hi))

theorem shallowNextBack_low (hA : A.Exact um) {mx : Option Nat} {L : List (Ev Nat × Nat)} (w : Low um f mx L) :
    shallowNextBack A f (shallowSt mx L) = .ok (L.getLast?, shallowSt mx L.dropLast) := by
  unfold shallowNextBack
  simp only [Shallow.nextBack, shallowSt, (w.mach hA).deNextBack]
  exact emit_ok fun i hi => w.walk.alive i (List.mem_of_getLast? hi)

theorem low_shallow (hm : Models f s) {t : Tree Nat} (ht : Tree.IsTree s.kids t)
    (hx : s.alive t.root = true) (hum : f.hier.nbrs.length ≤ um) (mx : Option Nat) : Low um f mx (t.shallow mx) :=
  ⟨shallow_walk hm ht hx mx, fun e he => by
    have h1 := Tree.shallow_below mx t e he
    have h2 := height_le_size hm ht hx
    omega⟩

theorem shallow_drive (hA : A.Exact um) (hm : Models f s) {t : Tree Nat} (ht : Tree.IsTree s.kids t)
    (hx : s.alive t.root = true) (hum : f.hier.nbrs.length ≤ um) (mx : Option Nat) (ds : List Dir) :
    drive (shallowNext A f) (shallowNextBack A f) (shallowSt mx (t.shallow mx)) ds = .ok (dequeRun (t.shallow mx) ds) :=
  drive_deque (P := Low um f mx) (st := shallowSt mx)
    (fun _ w => w.tail) (fun _ w => w.dropLast) (fun _ w => shallowNext_low hA w)
    (fun _ w => shallowNextBack_low hA w) ds _ (low_shallow hm ht hx hum mx)

/-! ### Breadth-first -/

theorem nextInner_low (hA : A.Exact um) {mx : Option Nat} (d : Nat) : ∀ (fuel : Nat) (L : List (Ev Nat × Nat)),
    Low um f mx L →
    nextInner A f.hier d fuel (shallowSt mx L) = Bft.nextInner f.hier d fuel (shallowSt mx L) ∧
    ∀ o st', Bft.nextInner f.hier d fuel (shallowSt mx L) = .ok (o, st') →
      (∃ L', Low um f mx L' ∧ st' = shallowSt mx L') ∧ (o ≠ none → ∃ e ∈ L, e.2 = d)
  | 0, L, _ => ⟨rfl, fun _ _ h => by simp [Bft.nextInner] at h⟩
  | fuel + 1, L, w => by
    unfold nextInner Bft.nextInner
    rw [next_low hA w, shallow_next_walk w.walk]
    cases L with
    | nil =>
      refine ⟨rfl, fun o st' h => ?_⟩
      simp only [List.head?_nil] at h
      injection h with h
      injection h with h1 h2
      exact ⟨⟨_, w.tail, h2.symm⟩, fun ho => absurd h1.symm ho⟩
    | cons e L =>
      obtain ⟨ev, d'⟩ := e
      obtain ⟨ih1, ih2⟩ := nextInner_low hA d fuel L w.tail
      have lift : ∀ o st', Bft.nextInner f.hier d fuel (shallowSt mx L) = .ok (o, st') →
          (∃ L', Low um f mx L' ∧ st' = shallowSt mx L') ∧ (o ≠ none → ∃ e ∈ (ev, d') :: L, e.2 = d) := by
        intro o st' h
        obtain ⟨h1, h2⟩ := ih2 o st' h
        exact ⟨h1, fun ho => by obtain ⟨e, he, hd⟩ := h2 ho; exact ⟨e, List.mem_cons_of_mem _ he, hd⟩⟩
      simp only [List.head?_cons, List.tail_cons]
      by_cases hd : d' = d
      · simp only [if_pos hd]
        cases ev with
        | opn id =>
          refine ⟨rfl, fun o st' h => ?_⟩
          injection h with h
          injection h with h1 h2
          exact ⟨⟨L, w.tail, h2.symm⟩, fun _ => ⟨_, List.mem_cons_self, hd⟩⟩
        | cls id => exact ⟨ih1, lift⟩
      · simp only [if_neg hd]
        exact ⟨ih1, lift⟩

/-- States of the breadth-first traverser of the tree `t`. -/
def BftLow (um : Nat) (f : Forest T) (t : Tree Nat) (st : Bft.St) : Prop :=
  st.root = none ∨ ∃ mx L, Low um f mx L ∧ st.inner = shallowSt mx L ∧ st.root = some t.root ∧ st.depth < t.height

theorem bftNext_low (hA : A.Exact um) (hm : Models f s) {t : Tree Nat} (ht : Tree.IsTree s.kids t)
    (hx : s.alive t.root = true) (hum : f.hier.nbrs.length ≤ um) {st : Bft.St} (hi : BftLow um f t st) :
    bftNext A um f.hier st = Bft.next um f.hier st ∧
      ∀ o st', Bft.next um f.hier st = .ok (o, st') → BftLow um f t st' := by
  rcases hi with hr | ⟨mx, L, w, hin, hr, hd⟩
  · unfold bftNext Bft.next
    rw [hr]
    refine ⟨rfl, fun o st' h => ?_⟩
    injection h with h
    injection h with _ h
    subst h
    exact .inl hr
  · obtain ⟨h1, h2⟩ := nextInner_low hA st.depth (Bft.fuel f.hier st.depth) L w
    unfold bftNext Bft.next
    simp only [hr, hin, h1]
    cases hni : Bft.nextInner f.hier st.depth (Bft.fuel f.hier st.depth) (shallowSt mx L) with
    | error e => exact ⟨rfl, fun _ _ h => by cases h⟩
    | ok p =>
      obtain ⟨o, inner'⟩ := p
      obtain ⟨⟨L', w', hL'⟩, _⟩ := h2 o inner' hni
      cases o with
      | some id =>
        refine ⟨rfl, fun o st' h => ?_⟩
        injection h with h
        injection h with _ h
        subst h
        exact .inr ⟨mx, L', w', hL', rfl, hd⟩
      | none =>
        have hle : st.depth + 1 ≤ um := by have := height_le_size hm ht hx; omega
        have hst : Treena.Shallow.withToplevelAndMaxDepth um t.root f.hier (some (st.depth + 1)) =
            .ok (shallowSt (Treena.Shallow.collapseMax um (some (st.depth + 1)))
              (t.shallow (Treena.Shallow.collapseMax um (some (st.depth + 1))))) := by
          rw [shallowSt, ends_shallow]
          simp [Treena.Shallow.withToplevelAndMaxDepth, hm.hierAlive, hx]
        have wM := low_shallow hm ht hx hum (Treena.Shallow.collapseMax um (some (st.depth + 1)))
        obtain ⟨g1, g2⟩ := nextInner_low hA (st.depth + 1) (Bft.fuel f.hier (st.depth + 1)) _ wM
        simp only [hA.succ _ hle, hst, g1]
        cases hnj : Bft.nextInner f.hier (st.depth + 1) (Bft.fuel f.hier (st.depth + 1))
            (shallowSt (Treena.Shallow.collapseMax um (some (st.depth + 1)))
              (t.shallow (Treena.Shallow.collapseMax um (some (st.depth + 1))))) with
        | error e => exact ⟨rfl, fun _ _ h => by cases h⟩
        | ok p =>
          obtain ⟨o, inner''⟩ := p
          obtain ⟨⟨M, wM', hM'⟩, hex⟩ := g2 o inner'' hnj
          cases o with
          | some id =>
            refine ⟨rfl, fun o st' h => ?_⟩
            injection h with h
            injection h with _ h
            subst h
            obtain ⟨e, he, hed⟩ := hex (by simp)
            have := Tree.shallow_below _ t e he
            exact .inr ⟨_, M, wM', hM', rfl, by simp only; omega⟩
          | none =>
            refine ⟨rfl, fun o st' h => ?_⟩
            injection h with h
            injection h with _ h
            subst h
            exact .inl rfl

/-- Two iterators that agree on an invariant set of states. -/
theorem pull_congr {ι σ : Type} {P : σ → Prop} {next next' : σ → R (Option ι × σ)}
    (h : ∀ st, P st → next' st = next st ∧ ∀ o st', next st = .ok (o, st') → P st') :
    ∀ (n : Nat) (st : σ), P st → pull next' n st = pull next n st
  | 0, _, _ => rfl
  | n + 1, st, hp => by
    unfold pull
    obtain ⟨h1, h2⟩ := h st hp
    rw [h1]
    cases hn : next st with
    | error e => rfl
    | ok p =>
      obtain ⟨o, st'⟩ := p
      simp only [pull_congr h n st' (h2 o st' hn)]

theorem advance_congr {ι σ : Type} {P : σ → Prop} {next next' : σ → R (Option ι × σ)}
    (h : ∀ st, P st → next' st = next st ∧ ∀ o st', next st = .ok (o, st') → P st') :
    ∀ (n : Nat) (st : σ), P st → advance next' n st = advance next n st ∧ ∀ st', advance next n st = .ok st' → P st'
  | 0, st, hp => ⟨rfl, fun st' e => by simp only [advance] at e; cases e; exact hp⟩
  | n + 1, st, hp => by
    unfold advance
    obtain ⟨h1, h2⟩ := h st hp
    rw [h1]
    cases hn : next st with
    | error e => exact ⟨rfl, fun _ e => by cases e⟩
    | ok p =>
      obtain ⟨o, st'⟩ := p
      exact advance_congr h n st' (h2 o st' hn)

theorem emit_state {ι σ : Type} {idOf : ι → Nat} {r : R (Option ι × σ)} {o : Option ι} {st' : σ}
    (h : f.emit idOf r = .ok (o, st')) : r = .ok (o, st') := by
  unfold Forest.emit at h
  cases r with
  | error e => cases h
  | ok p =>
    obtain ⟨o1, st1⟩ := p
    cases o1 with
    | none => exact h
    | some i =>
      simp only [] at h
      cases hn : f.nodeAt (idOf i) with
      | error e => rw [hn] at h; cases h
      | ok _ => rw [hn] at h; exact h

theorem breadthFirst_low (hA : A.Exact um) (hm : Models f s) {t : Tree Nat} (ht : Tree.IsTree s.kids t)
    (hx : s.alive t.root = true) (hum : f.hier.nbrs.length ≤ um) (st : Bft.St) (hi : BftLow um f t st) :
    breadthFirstNext A um f st = Forest.bftNext um f st ∧
      ∀ o st', Forest.bftNext um f st = .ok (o, st') → BftLow um f t st' := by
  obtain ⟨h1, h2⟩ := bftNext_low hA hm ht hx hum hi
  unfold breadthFirstNext Forest.bftNext
  exact ⟨by rw [h1], fun o st' h => h2 o st' (emit_state h)⟩

theorem bft_start_low (hm : Models f s) {t : Tree Nat} (ht : Tree.IsTree s.kids t)
    (hx : s.alive t.root = true) (hum : f.hier.nbrs.length ≤ um) :
    ∃ st, Forest.breadthFirstTraverse um f t.root = .ok st ∧ BftLow um f t st := by
  refine ⟨Bft.St.mk (shallowSt (Treena.Shallow.collapseMax um (some 0))
      (t.shallow (Treena.Shallow.collapseMax um (some 0)))) (some t.root) 0, ?_, ?_⟩
  · unfold Forest.breadthFirstTraverse
    rw [iterNew_ok (by rw [hm.isAlive, hx]), shallowSt, ends_shallow]
    simp [Bft.withToplevel, Treena.Shallow.withToplevelAndMaxDepth, hm.hierAlive, hx]
  · refine .inr ⟨_, _, low_shallow hm ht hx hum _, rfl, rfl, ?_⟩
    cases t; simp [Tree.height]

/-! ### Allocating breadth-first -/

theorem abftLoop_exact (hA : A.Exact um) {h : Hier} : ∀ (fuel : Nat) (st st' : ABft.St) (i : Nat × Nat),
    ABft.nextLoop h fuel st = .ok (some i, st') → i.2 ≤ um →
    abftLoop A h fuel st = .ok (some i, st') ∧ st.depth ≤ i.2
  | 0, _, _, _, e, _ => by simp [ABft.nextLoop] at e
  | fuel + 1, ⟨evs, d⟩, st', i, e, hi => by
    unfold ABft.nextLoop at e
    unfold abftLoop
    cases evs with
    | nil => simp at e
    | cons q rest =>
      cases q with
      | incrementDepth =>
        simp only [] at e ⊢
        by_cases hr : rest.isEmpty = true
        · rw [if_pos hr] at e; simp at e
        · rw [if_neg hr] at e ⊢
          obtain ⟨h1, h2⟩ := abftLoop_exact hA fuel _ st' i e hi
          simp only [] at h2
          rw [hA.succ d (by omega)]
          exact ⟨h1, by show d ≤ i.2; omega⟩
      | node id =>
        simp only [] at e ⊢
        refine ⟨?_, ?_⟩
        · refine Eq.trans ?_ e
          cases expect (h.neighbors id) "[consistency] the node to be traversed must be alive" with
          | error _ => rfl
          | ok nb =>
            simp only []
            cases nb.firstChild with
            | error _ => rfl
            | ok fc =>
              simp only []
              cases ABft.pushChildren h h.loopFuel fc rest <;> rfl
        · cases h1 : expect (h.neighbors id) "[consistency] the node to be traversed must be alive" with
          | error _ => rw [h1] at e; cases e
          | ok nb =>
            simp only [h1] at e
            cases h2 : nb.firstChild with
            | error _ => rw [h2] at e; cases e
            | ok fc =>
              simp only [h2] at e
              cases h3 : ABft.pushChildren h h.loopFuel fc rest with
              | error _ => rw [h3] at e; cases e
              | ok q =>
                simp only [h3] at e
                injection e with e
                injection e with e _
                injection e with e
                subst e
                exact Nat.le_refl _

/-- States of the allocating traverser; what it still has to emit has depths at most `um`. -/
def ABftLow (um : Nat) (s : Shape) (st : ABft.St) : Prop := ∃ rem, ABftInv s st rem ∧ ∀ i ∈ rem, i.2 ≤ um

theorem allocating_low (hA : A.Exact um) (hm : Models f s) (st : ABft.St) (hi : ABftLow um s st) :
    allocatingNext A f st = f.abftNext st ∧ ∀ o st', f.abftNext st = .ok (o, st') → ABftLow um s st' := by
  obtain ⟨rem, hi, hl⟩ := hi
  obtain ⟨st1, h1, h2, h3⟩ := abft_next hm st rem hi
  have hp : ABftLow um s st1 := ⟨_, h2, fun i h => hl i (List.mem_of_mem_tail h)⟩
  have heq : abftNext A f.hier st = ABft.next f.hier st := by
    cases rem with
    | cons i rem =>
      simp only [List.head?_cons] at h1
      rw [h1]
      exact (abftLoop_exact hA _ st st1 i h1 (hl i (by simp))).1
    | nil =>
      have hev : st.events = [] ∨ st.events = [.incrementDepth] := by
        rcases hi with ⟨he, _⟩ | ⟨cur, nxt, _, hev, hrem⟩
        · exact .inl he
        · right
          have hc : cur = [] := by
            cases cur with
            | nil => rfl
            | cons _ _ => simp at hrem
          subst hc
          have hn : nxt = [] := by
            have := Tree.length_bfsL_ge (st.depth + 1) nxt
            simp only [List.map_nil, List.nil_append, List.flatMap_nil, List.append_nil] at hrem
            rw [← hrem] at this
            exact List.length_eq_zero_iff.1 (by simpa using this)
          subst hn
          simpa using hev
      unfold abftNext ABft.next
      rcases hev with he | he <;> rw [he] <;> simp [abftLoop, ABft.nextLoop, he]
  refine ⟨by unfold allocatingNext Forest.abftNext; rw [heq], fun o st' h => ?_⟩
  have := emit_state h
  rw [h1] at this
  injection this with this
  injection this with _ this
  rw [← this]; exact hp

theorem allocatingPeek_low (hA : A.Exact um) {st : ABft.St} (hi : ABftLow um s st) :
    allocatingPeek A f st = f.abftPeek st := by
  obtain ⟨rem, hi, hl⟩ := hi
  unfold allocatingPeek Forest.abftPeek
  congr 1
  unfold abftPeek ABft.peek
  rcases hi with ⟨he, _⟩ | ⟨cur, nxt, _, hev, hrem⟩
  · rw [he]
  · rw [hev]
    cases cur with
    | cons _ _ => rfl
    | nil =>
      cases nxt with
      | nil => rfl
      | cons t ts =>
        simp only [List.map_nil, List.nil_append, List.flatMap_nil, List.append_nil] at hrem
        rw [Tree.bfsL_step (by simp)] at hrem
        have := hl (t.root, st.depth + 1) (by rw [hrem]; simp)
        simp only [List.map_nil, List.nil_append, List.map_cons, hA.succ _ this]

theorem mem_bfs_lt {α : Type} {t : Tree α} {i : α × Nat} (h : i ∈ t.bfs) : i.2 < t.height := by
  unfold Tree.bfs at h
  rw [List.mem_flatMap] at h
  obtain ⟨d, hd, h⟩ := h
  rw [List.mem_map] at h
  obtain ⟨a, _, rfl⟩ := h
  exact List.mem_range.1 hd

theorem abft_start_low (hm : Models f s) {t : Tree Nat} (ht : Tree.IsTree s.kids t)
    (hx : s.alive t.root = true) (hum : f.hier.nbrs.length ≤ um) :
    ∃ st, f.allocatingBreadthFirstTraverse t.root = .ok st ∧ ABftLow um s st := by
  obtain ⟨st, h1, h2⟩ := abft_start hm ht hx
  refine ⟨st, h1, _, h2, fun i hi => ?_⟩
  have := mem_bfs_lt hi
  have := height_le_size hm ht hx
  omega

end Mach
end Treena
