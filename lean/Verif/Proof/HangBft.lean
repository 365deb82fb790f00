import Verif.Proof.HangCause
/-!
# Why a breadth-first traversal hangs
-/
set_option autoImplicit false

namespace Treena
open Fuel
variable {T : Type} {f : Forest T} {um : Nat}

/-- `n` calls of `next` give `n` events. -/
def Gives (f : Forest T) (n : Nat) (st : Shallow.St) : Prop :=
  ∃ items, pull f.shallowNext n st = .ok items ∧ items.length = n ∧ ∀ i ∈ items, ∃ e, i = some e

theorem shallow_event {h : Hier} {st st' : Shallow.St} {e : Ev Nat × Nat} (hn : Shallow.next h st = .ok (some e, st')) :
    ∃ b, st.next = some (e, b) ∧ st'.maxDepth = st.maxDepth ∧
      (st'.next = none ∨ ∃ e', st'.next = some (e', b) ∧ Shallow.stepFwd h st.maxDepth e = .ok (some e') ∧
        ((∃ nb, h.neighbors e.1.node = some nb) ∨ ∃ y, e.1 = .opn y ∧ e' = (.cls y, e.2))) := by
  obtain ⟨nx, m⟩ := st
  unfold Shallow.next deNext at hn
  cases nx with
  | none => cases hn
  | some p =>
    obtain ⟨nxt, b⟩ := p
    dsimp only at hn
    split at hn
    · cases hn
    · rename_i o n' hd
      cases hn
      split at hd
      · cases hd; exact ⟨b, rfl, rfl, .inl rfl⟩
      · split at hd
        · cases hd
        · rename_i nn hs
          cases hd
          refine ⟨b, rfl, rfl, .inr ⟨nn, rfl, hs, ?_⟩⟩
          obtain ⟨ev, d⟩ := e
          cases ev with
          | opn y =>
            unfold Shallow.stepFwd at hs
            dsimp only at hs
            split at hs
            · cases hs; exact .inr ⟨y, rfl, rfl⟩
            · left
              unfold travNbr at hs
              cases hy : h.neighbors y with
              | none => rw [hy] at hs; cases hs
              | some nb => exact ⟨nb, hy⟩
          | cls y =>
            left
            unfold Shallow.stepFwd travNbr at hs
            dsimp only at hs
            cases hy : h.neighbors y with
            | none => rw [hy] at hs; cases hs
            | some nb => exact ⟨nb, hy⟩
        · cases hd; exact ⟨b, rfl, rfl, .inl rfl⟩

theorem shallow_alive (hc : Coherent f) {st st' st'' : Shallow.St} {e e' : Ev Nat × Nat} (h1 : Shallow.next f.hier st = .ok (some e, st'))
    (h2 : Shallow.next f.hier st' = .ok (some e', st'')) (h3 : st''.next ≠ none) : f.isAlive e.1.node = true := by
  obtain ⟨b, -, -, hcase⟩ := shallow_event h1
  obtain ⟨b', h4, -, hcase'⟩ := shallow_event h2
  rcases hcase with h0 | ⟨e2, h5, -, ⟨nb, hnb⟩ | ⟨y, h6, h7⟩⟩
  · rw [h0] at h4; cases h4
  · exact hc.alive_of hnb
  · rw [h5] at h4
    cases h4
    subst h7
    rcases hcase' with h0 | ⟨e3, -, -, ⟨nb, hnb⟩ | ⟨y', h8, -⟩⟩
    · exact absurd h0 h3
    · rw [h6]; exact hc.alive_of hnb
    · cases h8

theorem gives_step {st : Shallow.St} {n : Nat} (h : Gives f (n + 1) st) :
    ∃ e st', Shallow.next f.hier st = .ok (some e, st') ∧ Gives f n st' := by
  obtain ⟨items, h1, h2, h3⟩ := h
  unfold pull Forest.shallowNext Forest.emit at h1
  cases hn : Shallow.next f.hier st with
  | error e => rw [hn] at h1; cases h1
  | ok p =>
    obtain ⟨o, st'⟩ := p
    rw [hn] at h1
    cases o with
    | none =>
      dsimp only at h1
      split at h1
      · cases h1
      · cases h1
        obtain ⟨e, he⟩ := h3 none (by simp)
        cases he
    | some e =>
      dsimp only at h1
      cases ha : f.nodeAt e.1.node with
      | error e => rw [ha] at h1; cases h1
      | ok z =>
        rw [ha] at h1
        dsimp only at h1
        split at h1
        · cases h1
        · rename_i os hp
          cases h1
          exact ⟨e, st', rfl, os, hp, by simpa using h2, fun i hi => h3 i (List.mem_cons_of_mem _ hi)⟩

theorem gives_cons {st st' : Shallow.St} {n : Nat} {e : Ev Nat × Nat} (hn : Shallow.next f.hier st = .ok (some e, st')) (ha : f.isAlive e.1.node = true)
    (h : Gives f n st') : Gives f (n + 1) st := by
  obtain ⟨l, h1, h2, h3⟩ := h
  refine ⟨some e :: l, ?_, by simp [h2], fun i hi => ?_⟩
  · have : f.shallowNext st = .ok (some e, st') := by
      unfold Forest.shallowNext Forest.emit
      rw [hn]
      simp [Forest.nodeAt, Forest.node, ha, expect]
    simp [pull, this, h1]
  · rcases List.mem_cons.1 hi with rfl | hi
    · exact ⟨e, rfl⟩
    · exact h3 i hi

theorem next_none {h : Hier} {st : Shallow.St} (h0 : st.next = none) : Shallow.next h st = .ok (none, st) := by
  obtain ⟨nx, m⟩ := st
  subst h0
  rfl

/-- An endless rest makes the whole endless. -/
theorem gives_before (hc : Coherent f) {st st' : Shallow.St} {e : Ev Nat × Nat} (hn : Shallow.next f.hier st = .ok (some e, st'))
    (h : ∀ n, Gives f n st') (n : Nat) : Gives f n st := by
  obtain ⟨e', st'', h1, h2⟩ := gives_step (h 2)
  obtain ⟨e'', st3, h3, -⟩ := gives_step h2
  have ha := shallow_alive hc hn h1 (by
    intro h0
    rw [next_none h0] at h3; cases h3)
  cases n with
  | zero => exact ⟨[], rfl, rfl, nofun⟩
  | succ n => exact gives_cons hn ha (h n)

theorem shallow_next_halts (h : Hier) (st : Shallow.St) : Shallow.next h st ≠ .error .diverge := by
  unfold Shallow.next
  split
  · rename_i e he
    intro e'
    cases e'
    exact absurd he (Halts.deNext (fun e => Halts.shFwd _ e) _)
  · nofun

/-- The loop of `next_inner` goes on. -/
theorem inner_round {h : Hier} {depth F : Nat} {st : Shallow.St} (hd : Bft.nextInner h depth (F + 1) st = .error .diverge) :
    ∃ e st', Shallow.next h st = .ok (some e, st') ∧ Bft.nextInner h depth F st' = .error .diverge := by
  unfold Bft.nextInner at hd
  cases hn : Shallow.next h st with
  | error e =>
    rw [hn] at hd
    simp only [Except.error.injEq] at hd
    subst hd
    exact absurd hn (shallow_next_halts _ _)
  | ok p =>
    obtain ⟨o, st'⟩ := p
    rw [hn] at hd
    cases o with
    | none => cases hd
    | some e =>
      obtain ⟨ev, d⟩ := e
      refine ⟨_, st', rfl, ?_⟩
      dsimp only at hd
      split at hd
      · cases ev with
        | opn y => cases hd
        | cls y => exact hd
      · exact hd

theorem inner_less {h : Hier} {depth : Nat} : ∀ (F : Nat) {st : Shallow.St}, Bft.nextInner h depth (F + 1) st = .error .diverge →
    Bft.nextInner h depth F st = .error .diverge
  | 0, _, _ => rfl
  | F + 1, st, hd => by
    obtain ⟨e, st', h1, h2⟩ := inner_round hd
    have h3 := inner_less F h2
    unfold Bft.nextInner at hd ⊢
    rw [h1] at hd ⊢
    obtain ⟨ev, d⟩ := e
    dsimp only at hd ⊢
    split at hd
    · rename_i hdep
      rw [if_pos hdep]
      cases ev with
      | opn y => cases hd
      | cls y => exact h3
    · rename_i hdep
      rw [if_neg hdep]; exact h3

theorem inner_gives (hc : Coherent f) {depth : Nat} : ∀ (n : Nat) (st : Shallow.St), (∀ F, Bft.nextInner f.hier depth F st = .error .diverge) → Gives f n st
  | 0, _, _ => ⟨[], rfl, rfl, nofun⟩
  | n + 1, st, h => by
    have down : ∀ {st : Shallow.St}, (∀ F, Bft.nextInner f.hier depth F st = .error .diverge) →
        ∃ e st', Shallow.next f.hier st = .ok (some e, st') ∧ ∀ F, Bft.nextInner f.hier depth F st' = .error .diverge := by
      intro st h
      obtain ⟨e, st', h1, -⟩ := inner_round (h 1)
      refine ⟨e, st', h1, fun F => ?_⟩
      obtain ⟨e2, st2, h2, h3⟩ := inner_round (h (F + 1))
      rw [h1] at h2
      cases h2
      exact h3
    obtain ⟨e, st', h1, h2⟩ := down h
    obtain ⟨e', st'', h3, h4⟩ := down h2
    obtain ⟨e'', st3, h5, -⟩ := down h4
    have ha := shallow_alive hc h1 h3 (by
      intro h0
      rw [next_none h0] at h5; cases h5)
    exact gives_cons h1 ha (inner_gives hc n st' h2)

/-- What is known of the inner traverser: a limit on its depths, and if its rest is endless, so is the shallow traversal. -/
structure InnerAt (um : Nat) (f : Forest T) (x D : Nat) (st : Shallow.St) : Prop where
  limit : st.maxDepth = some D
  low : ∀ nxt back, st.next = some (nxt, back) → nxt.2 ≤ D
  whole : (∀ n, Gives f n st) → EndlessShallow um f x D

theorem InnerAt.next (hc : Coherent f) {x D : Nat} {st st' : Shallow.St} {e : Ev Nat × Nat} (hi : InnerAt um f x D st)
    (hn : Shallow.next f.hier st = .ok (some e, st')) : InnerAt um f x D st' := by
  obtain ⟨b, h1, h2, hcase⟩ := shallow_event hn
  refine ⟨by rw [h2]; exact hi.limit, fun nxt back h3 => ?_, fun h => hi.whole fun n => gives_before hc hn h n⟩
  rcases hcase with h0 | ⟨e', h4, h5, -⟩
  · rw [h0] at h3; cases h3
  · rw [h4] at h3
    cases h3
    rw [hi.limit] at h5
    exact shallow_step_depth h5 (hi.low _ _ h1)

theorem InnerAt.inner (hc : Coherent f) {x D depth : Nat} : ∀ (F : Nat) {st st' : Shallow.St} {y : Nat}, InnerAt um f x D st →
    Bft.nextInner f.hier depth F st = .ok (some y, st') → InnerAt um f x D st'
  | 0, _, _, _, _, e => by cases e
  | F + 1, st, st', y, hi, e => by
    unfold Bft.nextInner at e
    cases hn : Shallow.next f.hier st with
    | error e' => rw [hn] at e; cases e
    | ok p =>
      obtain ⟨o, st1⟩ := p
      rw [hn] at e
      cases o with
      | none => cases e
      | some ev =>
        have hi' := hi.next hc hn
        obtain ⟨ev, d⟩ := ev
        dsimp only at e
        split at e
        · cases ev with
          | opn z => cases e; exact hi'
          | cls z => exact InnerAt.inner hc F hi' e
        · exact InnerAt.inner hc F hi' e

theorem InnerAt.hangs (hc : Coherent f) {x D : Nat} {st : Shallow.St} (hi : InnerAt um f x D st)
    (e : Bft.nextInner f.hier D (Bft.fuel f.hier D) st = .error .diverge) : EndlessShallow um f x D := by
  refine hi.whole fun n => inner_gives hc (depth := D) n st fun F => ?_
  have all : Bft.nextInner f.hier D (Bft.fuel f.hier D + F) st = .error .diverge := by
    rw [nextInner_fuel D hi.limit hi.low (by unfold Bft.fuel; omega)]; exact e
  have down : ∀ k, Bft.nextInner f.hier D (F + k) st = .error .diverge → Bft.nextInner f.hier D F st = .error .diverge := by
    intro k
    induction k with
    | zero => intro h; exact h
    | succ k ih => intro h; exact ih (inner_less _ h)
  exact down _ (by rw [Nat.add_comm]; exact all)

theorem InnerAt.start {x D : Nat} (ha : f.isAlive x = true) (hD : D < um) {st : Shallow.St}
    (h : Shallow.withToplevelAndMaxDepth um x f.hier (some D) = .ok st) : InnerAt um f x D st := by
  have hst : f.shallowDepthFirstTraverse um x (some D) = .ok st := by
    unfold Forest.shallowDepthFirstTraverse Forest.iterNew Forest.nodeOrPanic Forest.node
    simp [ha, expect, h]
  unfold Shallow.withToplevelAndMaxDepth at h
  split at h <;> cases h
  refine ⟨by simp [Shallow.collapseMax, hD], fun nxt back e => ?_, fun h => ⟨_, hst, h⟩⟩
  cases e
  exact Nat.zero_le _

/-- The state of a breadth-first traversal at `x`. -/
def BftAt (um : Nat) (f : Forest T) (x : Nat) (st : Bft.St) : Prop :=
  ∀ r, st.root = some r → r = x ∧ f.isAlive x = true ∧ InnerAt um f x st.depth st.inner

theorem bft_step (hc : Coherent f) {x : Nat} {st : Bft.St} (hs : BftAt um f x st) (hd : st.depth + 1 < um) :
    (Bft.next um f.hier st = .error .diverge → ∃ m, EndlessShallow um f x m) ∧
    ∀ o st', Bft.next um f.hier st = .ok (o, st') → BftAt um f x st' ∧ st'.depth ≤ st.depth + 1 := by
  unfold Bft.next
  cases hr : st.root with
  | none => exact ⟨nofun, fun o st' e => by cases e; exact ⟨hs, by omega⟩⟩
  | some r =>
    obtain ⟨rfl, ha, hi⟩ := hs r hr
    dsimp only
    cases h1 : Bft.nextInner f.hier st.depth (Bft.fuel f.hier st.depth) st.inner with
    | error e =>
      refine ⟨fun e' => ?_, nofun⟩
      simp only [Except.error.injEq] at e'
      subst e'
      exact ⟨_, hi.hangs hc h1⟩
    | ok p =>
      obtain ⟨o, inner'⟩ := p
      cases o with
      | some y =>
        refine ⟨nofun, fun o st' e => ?_⟩
        cases e
        refine ⟨fun r' hr' => ?_, by simp⟩
        cases hr'
        exact ⟨rfl, ha, hi.inner hc _ h1⟩
      | none =>
        dsimp only
        cases h2 : Shallow.withToplevelAndMaxDepth um r f.hier (some (st.depth + 1)) with
        | error e =>
          refine ⟨fun e' => ?_, nofun⟩
          simp only [Except.error.injEq] at e'
          subst e'
          unfold Shallow.withToplevelAndMaxDepth at h2
          split at h2 <;> cases h2
        | ok inner1 =>
          have hi1 : InnerAt um f r (st.depth + 1) inner1 := .start ha hd h2
          dsimp only
          cases h3 : Bft.nextInner f.hier (st.depth + 1) (Bft.fuel f.hier (st.depth + 1)) inner1 with
          | error e =>
            refine ⟨fun e' => ?_, nofun⟩
            simp only [Except.error.injEq] at e'
            subst e'
            exact ⟨_, hi1.hangs hc h3⟩
          | ok p =>
            obtain ⟨o, inner2⟩ := p
            cases o with
            | some y =>
              refine ⟨nofun, fun o st' e => ?_⟩
              cases e
              refine ⟨fun r' hr' => ?_, by simp⟩
              cases hr'
              exact ⟨rfl, ha, hi1.inner hc _ h3⟩
            | none =>
              refine ⟨nofun, fun o st' e => ?_⟩
              cases e
              exact ⟨nofun, by simp⟩

theorem bft_pull (hc : Coherent f) {x : Nat} : ∀ (n : Nat) (st : Bft.St), BftAt um f x st → st.depth + n < um →
    pull (f.bftNext um) n st = .error .diverge → ∃ m, EndlessShallow um f x m
  | 0, _, _, _, h => by cases h
  | n + 1, st, hs, hd, h => by
    obtain ⟨h1, h2⟩ := bft_step hc hs (by omega)
    unfold pull Forest.bftNext Forest.emit at h
    cases hn : Bft.next um f.hier st with
    | error e =>
      rw [hn] at h
      simp only [Except.error.injEq] at h
      subst h
      exact h1 hn
    | ok p =>
      obtain ⟨o, st'⟩ := p
      obtain ⟨hs', hd'⟩ := h2 o st' hn
      rw [hn] at h
      cases o with
      | none =>
        dsimp only at h
        split at h
        · rename_i e he
          simp only [Except.error.injEq] at h
          subst h
          exact bft_pull hc n st' hs' (by omega) he
        · cases h
      | some i =>
        dsimp only at h
        cases ha : f.nodeAt i.1 with
        | error e =>
          rw [ha] at h
          simp only [Except.error.injEq] at h
          subst h
          exact absurd ha (Halts.nodeAt _)
        | ok z =>
          rw [ha] at h
          dsimp only at h
          split at h
          · rename_i e he
            simp only [Except.error.injEq] at h
            subst h
            exact bft_pull hc n st' hs' (by omega) he
          · cases h

end Treena
