import Verif.Proof.Fuel
/-!
# Enough fuel: the read-only loops -/
set_option autoImplicit false

namespace Treena
open Fuel
variable {h : Hier}

theorem nbr_live {n : Nat} {nb : Neighbors} (hn : h.neighbors n = some nb) : nb.isAlive = true := by
  unfold Hier.neighbors at hn
  exact (Option.filter_eq_some_iff.1 hn).2

theorem anc_next_some (n : Nat) : Ancestors.next h (some n) =
    match h.neighbors n with
    | none => .error (.panic "[consistency] the node being traversed must be alive")
    | some nb => .ok (some n, nb.parent) := by
  unfold Ancestors.next
  cases hn : h.neighbors n with
  | none => simp [expect, hn]
  | some nb => simp [expect, hn, Neighbors.getParent, nbr_live hn]

/-- A round of the loop `hierarchy.rs` 864-869. -/
def meetBody (h : Hier) (root : Nat) (st : Ancestors.St) : R (Ancestors.St ⊕ Bool) :=
  match Ancestors.next h st with
  | .error e => .error e
  | .ok (none, _) => .ok (.inr false)
  | .ok (some a, st') => if a = root then .ok (.inr true) else .ok (.inl st')

theorem ancestorsMeet_fuel (root : Nat) (st : Ancestors.St) (k : Nat) :
    Hier.ancestorsMeet h root (h.loopFuel + k) st = Hier.ancestorsMeet h root h.loopFuel st := by
  refine IsLoop.enough_follow (h := h) (L := Hier.ancestorsMeet h root) (body := meetBody h root) ?_
    (lk := Neighbors.parent) (stop := fun n => n = root) id ?_ (by unfold Hier.loopFuel; omega) st k
  · refine ⟨fun s => .inl rfl, fun k s => ?_⟩
    simp only [Hier.ancestorsMeet, meetBody]
    cases Ancestors.next h s with
    | error e => rfl
    | ok r =>
      obtain ⟨o, st'⟩ := r
      cases o with
      | none => rfl
      | some a => simp only; split <;> rfl
  · intro s
    rw [Option.map_id_fun]
    cases s with
    | none => rfl
    | some n =>
      simp only [stepOf, meetBody, anc_next_some, follow, id, decide_eq_true_eq]
      cases h.neighbors n with
      | none => simp
      | some nb => by_cases e : n = root <;> simp [e]

/-- A round of the loop `hierarchy.rs` 913-926. -/
def containsBody (h : Hier) (last prevAncestor : Nat) (cur : Option Nat) : R (Option Nat ⊕ Bool) :=
  match cur with
  | none => .ok (.inr false)
  | some toplevel =>
    if toplevel = prevAncestor then .ok (.inr true)
    else if toplevel = last then .ok (.inr false)
    else
      match h.neighbors toplevel with
      | none => .error (.panic "[consistency] nodes in the range must be alive")
      | some nb => .ok (.inl nb.next)

theorem rangeContains_fuel (last prevAncestor : Nat) (cur : Option Nat) (k : Nat) :
    Hier.rangeContains h last prevAncestor (h.loopFuel + k) cur =
      Hier.rangeContains h last prevAncestor h.loopFuel cur := by
  refine IsLoop.enough_follow (h := h) (L := Hier.rangeContains h last prevAncestor)
    (body := containsBody h last prevAncestor) ?_
    (lk := Neighbors.next) (stop := fun n => n = prevAncestor || n = last) id ?_ (by unfold Hier.loopFuel; omega) cur k
  · refine ⟨fun s => ?_, fun k s => ?_⟩
    · cases s with
      | none => exact .inr ⟨false, rfl, rfl⟩
      | some n => exact .inl rfl
    · cases s with
      | none => rfl
      | some n =>
        simp only [Hier.rangeContains, containsBody]
        split
        · rfl
        · split
          · rfl
          · cases hn : h.neighbors n with
            | none => rfl
            | some nb => simp [expect, Neighbors.nextSibling, nbr_live hn]
  · intro s
    rw [Option.map_id_fun]
    cases s with
    | none => rfl
    | some n =>
      simp only [stepOf, containsBody, follow, id, Bool.or_eq_true, decide_eq_true_eq]
      by_cases e1 : n = prevAncestor
      · simp [e1]
      · by_cases e2 : n = last
        · rw [if_neg e1, if_pos e2]; simp [e2]
        · simp only [e1, e2, if_false, or_self]
          cases h.neighbors n <;> rfl

/-- A round of the loop `hierarchy.rs` 888-929; the state is the traverser and `prev_ancestor`. -/
def rangeBody (h : Hier) (first last rangeParent innerFuel : Nat) (s : Ancestors.St × Nat) :
    R ((Ancestors.St × Nat) ⊕ Bool) :=
  match Ancestors.next h s.1 with
  | .error e => .error e
  | .ok (none, _) => .ok (.inr false)
  | .ok (some a, st') =>
    if a ≠ rangeParent then .ok (.inl (st', s.2))
    else
      match Hier.rangeContains h last s.2 innerFuel (some first) with
      | .error e => .error e
      | .ok true => .ok (.inr true)
      | .ok false => .ok (.inl (st', a))

theorem rangeLoop_fuel (first last rangeParent innerFuel : Nat) (st : Ancestors.St) (prev : Nat) {F : Nat}
    (hF : 2 * h.nbrs.length + 1 < F) (k : Nat) :
    Hier.rangeLoop h first last rangeParent innerFuel (F + k) st prev =
      Hier.rangeLoop h first last rangeParent innerFuel F st prev := by
  have hlt : ∀ s s', stepOf (rangeBody h first last rangeParent innerFuel) s = some s' →
      ∃ n, s.1 = some n ∧ n < h.nbrs.length ∧ (s'.2 = s.2 ∨ s'.2 = rangeParent) := by
    rintro ⟨st, q⟩ s' hs
    rw [stepOf_eq] at hs
    unfold rangeBody at hs
    cases st with
    | none => simp [Ancestors.next] at hs
    | some n =>
      simp only [anc_next_some] at hs
      cases hn : h.neighbors n with
      | none => rw [hn] at hs; simp at hs
      | some nb =>
        rw [hn] at hs
        refine ⟨n, rfl, nbr_lt hn, ?_⟩
        simp only at hs
        split at hs
        · cases hs; exact .inl rfl
        · next hp =>
          split at hs
          · cases hs
          · cases hs
          · cases hs; right; simpa using hp
  have := IsLoop.enough (L := fun k (s : Ancestors.St × Nat) => Hier.rangeLoop h first last rangeParent innerFuel k s.1 s.2)
    (body := rangeBody h first last rangeParent innerFuel) ⟨fun s => .inl rfl, fun k s => ?_⟩ id
    (stepOf (rangeBody h first last rangeParent innerFuel)) (fun s => by rw [Option.map_id_fun]; rfl)
    (fun s => s.2 = prev ∨ s.2 = rangeParent) ?_ (N := 2 * h.nbrs.length)
    (fun s => 2 * s.1.getD 0 + (if s.2 = prev then 0 else 1)) ?_ ?_ hF (s := (st, prev)) (.inl rfl) k
  · exact this
  · simp only [Hier.rangeLoop, rangeBody]
    cases Ancestors.next h s.1 with
    | error e => rfl
    | ok r =>
      obtain ⟨o, st'⟩ := r
      cases o with
      | none => rfl
      | some a =>
        simp only
        split
        · rfl
        · cases Hier.rangeContains h last s.2 innerFuel (some first) with
          | error e => rfl
          | ok b => cases b <;> rfl
  · intro s s' hi hs
    obtain ⟨n, _, _, h3⟩ := hlt s s' hs
    rcases h3 with e | e
    · rw [e]; exact hi
    · exact .inr e
  · intro s s' _ hi hs _
    obtain ⟨n, e, h2, _⟩ := hlt s s' hs
    rw [e, Option.getD_some]
    split <;> omega
  · intro s s' _ t t' _ hi ht hs _ hs' _ e
    obtain ⟨n, e1, _, _⟩ := hlt s s' hs
    obtain ⟨m, e2, _, _⟩ := hlt t t' hs'
    obtain ⟨s1, s2⟩ := s
    obtain ⟨t1, t2⟩ := t
    simp only at e1 e2 hi ht
    subst e1; subst e2
    simp only [Option.getD_some] at e
    have hnm : n = m := by
      split at e <;> split at e <;> omega
    subst hnm
    have : s2 = t2 := by
      by_cases ha : s2 = prev <;> by_cases hb : t2 = prev
      · rw [ha, hb]
      · rw [if_pos ha, if_neg hb] at e; omega
      · rw [if_neg ha, if_pos hb] at e; omega
      · rcases hi with hi | hi <;> rcases ht with ht | ht <;> first | (exact absurd hi ha) | (exact absurd ht hb) | rw [hi, ht]
    rw [this]

/-! ### Breadth-first traversal -/

/-- A round of the loop `traverse.rs` 761-771. -/
def pushBody (h : Hier) (s : Option Nat × List ABft.QEv) : R ((Option Nat × List ABft.QEv) ⊕ List ABft.QEv) :=
  match s.1 with
  | none => .ok (.inr s.2)
  | some child =>
    match h.neighbors child with
    | none => .error (.panic "[consistency] the node to be traversed must be alive")
    | some nb => .ok (.inl (nb.next, s.2 ++ [.node child]))

theorem pushChildren_fuel (c : Option Nat) (q : List ABft.QEv) (k : Nat) :
    ABft.pushChildren h (h.loopFuel + k) c q = ABft.pushChildren h h.loopFuel c q := by
  refine IsLoop.enough_follow (h := h) (L := fun k (s : Option Nat × List ABft.QEv) => ABft.pushChildren h k s.1 s.2)
    (body := pushBody h) ?_ (lk := Neighbors.next) (stop := fun _ => false) Prod.fst ?_
    (by unfold Hier.loopFuel; omega) (c, q) k
  · refine ⟨fun s => ?_, fun k s => ?_⟩
    · obtain ⟨c, q⟩ := s
      cases c with
      | none => exact .inr ⟨q, rfl, rfl⟩
      | some n => exact .inl rfl
    · obtain ⟨c, q⟩ := s
      cases c with
      | none => rfl
      | some n =>
        simp only [ABft.pushChildren, pushBody]
        cases hn : h.neighbors n with
        | none => rfl
        | some nb => simp [expect, Neighbors.nextSibling, nbr_live hn]
  · rintro ⟨c, q⟩
    cases c with
    | none => rfl
    | some n =>
      simp only [stepOf, pushBody, follow, Bool.false_eq_true, if_false]
      cases h.neighbors n <;> rfl

/-- A round of the loop `traverse.rs` 743-777. -/
def queueBody (h : Hier) (st : ABft.St) : R (ABft.St ⊕ (Option (Nat × Nat) × ABft.St)) :=
  match st.events with
  | [] => .ok (.inr (none, st))
  | .incrementDepth :: rest =>
    if rest.isEmpty then .ok (.inr (none, { st with events := [] }))
    else .ok (.inl { events := rest ++ [.incrementDepth], depth := st.depth + 1 })
  | .node id :: rest =>
    match expect (h.neighbors id) "[consistency] the node to be traversed must be alive" with
    | .error e => .error e
    | .ok nb =>
      match nb.firstChild with
      | .error e => .error e
      | .ok fc =>
        match ABft.pushChildren h h.loopFuel fc rest with
        | .error e => .error e
        | .ok q => .ok (.inr (some (id, st.depth), { st with events := q }))

/-- Rotating a queue that begins with depth marks. -/
def rotate : List ABft.QEv → Option (List ABft.QEv)
  | .incrementDepth :: rest => if rest.isEmpty then none else some (rest ++ [.incrementDepth])
  | _ => none

theorem rotate_goes : ∀ (k : Nat) (q : List ABft.QEv), Goes rotate k q → q.length < k → ∀ e ∈ q, e = .incrementDepth := by
  -- the first `k` events are marks
  have key : ∀ (k : Nat) (q r : List ABft.QEv), Goes rotate k (q ++ r) → q.length ≤ k → ∀ e ∈ q, e = .incrementDepth := by
    intro k
    induction k with
    | zero => intro q r _ hl e he; have : q = [] := List.length_eq_zero_iff.1 (by omega); subst this; simp at he
    | succ k ih =>
      intro q r hg hl e he
      cases q with
      | nil => simp at he
      | cons a q =>
        obtain ⟨q', hr, hg'⟩ := hg
        cases a with
        | node _ => simp [rotate] at hr
        | incrementDepth =>
          simp only [List.cons_append, rotate] at hr
          split at hr
          · cases hr
          · cases hr
            rcases List.mem_cons.1 he with rfl | he
            · rfl
            · rw [List.append_assoc] at hg'
              exact ih q _ hg' (by simp at hl; omega) e he
  intro k q hg hl
  exact key k q [] (by rwa [List.append_nil]) (by omega)

theorem nextLoop_fuel (st : ABft.St) (k : Nat) :
    ABft.nextLoop h (st.events.length + 2 + k) st = ABft.nextLoop h (st.events.length + 2) st := by
  have hL : IsLoop (ABft.nextLoop h) (queueBody h) := by
    refine ⟨fun s => .inl rfl, fun k s => ?_⟩
    obtain ⟨ev, d⟩ := s
    simp only [ABft.nextLoop, queueBody]
    cases ev with
    | nil => rfl
    | cons a rest =>
      cases a with
      | incrementDepth => simp only; split <;> rfl
      | node id =>
        simp only
        cases expect (h.neighbors id) "[consistency] the node to be traversed must be alive" with
        | error e => rfl
        | ok nb =>
          simp only
          cases nb.firstChild with
          | error e => rfl
          | ok fc =>
            simp only
            cases ABft.pushChildren h h.loopFuel fc rest <;> rfl
  have hπ : ∀ s, (stepOf (queueBody h) s).map ABft.St.events = rotate s.events := by
    rintro ⟨ev, d⟩
    simp only [stepOf, queueBody]
    cases ev with
    | nil => rfl
    | cons a rest =>
      cases a with
      | incrementDepth => cases rest <;> rfl
      | node id =>
        simp only [rotate]
        cases expect (h.neighbors id) "[consistency] the node to be traversed must be alive" with
        | error e => rfl
        | ok nb =>
          simp only
          cases nb.firstChild with
          | error e => rfl
          | ok fc =>
            simp only
            cases ABft.pushChildren h h.loopFuel fc rest <;> rfl
  rcases hL.goes (st.events.length + 2) st with hg | hg
  · have hg' := (goes_proj _ hπ _ _).1 hg
    have hall := rotate_goes _ _ hg' (by omega)
    have hrep : st.events = List.replicate st.events.length .incrementDepth := List.eq_replicate_iff.2 ⟨rfl, hall⟩
    have hfor : ∀ k, Goes rotate k st.events := by
      obtain ⟨q', hr, _⟩ := hg'
      intro k
      have hfix : rotate st.events = some st.events := by
        cases hq : st.events with
        | nil => rw [hq] at hr; simp [rotate] at hr
        | cons a rest =>
          have ha : a = .incrementDepth := hall a (by rw [hq]; simp)
          subst ha
          rw [hq] at hr
          simp only [rotate] at hr ⊢
          split at hr
          · cases hr
          · next hne =>
            rw [if_neg hne]
            have hrest : rest = List.replicate rest.length .incrementDepth :=
              List.eq_replicate_iff.2 ⟨rfl, fun e he => hall e (by rw [hq]; simp [he])⟩
            rw [hrest]
            simp only [Option.some.injEq]
            rw [show [ABft.QEv.incrementDepth] = List.replicate 1 .incrementDepth from rfl, List.replicate_append_replicate,
              List.replicate_succ]
      induction k with
      | zero => trivial
      | succ k ih => exact ⟨_, hfix, ih⟩
    rw [hL.diverge _ _ ((goes_proj _ hπ _ _).2 (hfor _)), hL.diverge _ _ ((goes_proj _ hπ _ _).2 (hfor _))]
  · exact hg k

/-- A round of the loop `traverse.rs` 679-690. -/
def innerBody (h : Hier) (depth : Nat) (inner : Shallow.St) : R (Shallow.St ⊕ (Option Nat × Shallow.St)) :=
  match Shallow.next h inner with
  | .error e => .error e
  | .ok (none, inner') => .ok (.inr (none, inner'))
  | .ok (some (ev, d), inner') =>
    if d = depth then
      match ev with
      | .opn id => .ok (.inr (some id, inner'))
      | .cls _ => .ok (.inl inner')
    else .ok (.inl inner')

theorem inner_step {depth : Nat} {s s' : Shallow.St} (hb : stepOf (innerBody h depth) s = some s') :
    ∃ nxt back, s.next = some (nxt, back) ∧ s'.maxDepth = s.maxDepth ∧
      ((nxt = back ∧ s'.next = none) ∨
        nxt ≠ back ∧ ((Shallow.stepFwd h s.maxDepth nxt = .ok none ∧ s'.next = none) ∨
          ∃ nn, Shallow.stepFwd h s.maxDepth nxt = .ok (some nn) ∧ s'.next = some (nn, back))) := by
  rw [stepOf_eq] at hb
  unfold innerBody Shallow.next at hb
  obtain ⟨next, mx⟩ := s
  cases next with
  | none => simp [deNext] at hb
  | some p =>
    obtain ⟨nxt, back⟩ := p
    refine ⟨nxt, back, rfl, ?_⟩
    simp only [deNext] at hb ⊢
    by_cases e : nxt = back
    · rw [if_pos e] at hb
      simp only at hb
      split at hb
      · split at hb
        · cases hb
        · cases hb; exact ⟨rfl, .inl ⟨e, rfl⟩⟩
      · cases hb; exact ⟨rfl, .inl ⟨e, rfl⟩⟩
    · rw [if_neg e] at hb
      cases hst : Shallow.stepFwd h mx nxt with
      | error er => rw [hst] at hb; simp at hb
      | ok o =>
        rw [hst] at hb
        cases o with
        | none =>
          simp only at hb
          split at hb
          · split at hb
            · cases hb
            · cases hb; exact ⟨rfl, .inr ⟨e, .inl ⟨rfl, rfl⟩⟩⟩
          · cases hb; exact ⟨rfl, .inr ⟨e, .inl ⟨rfl, rfl⟩⟩⟩
        | some nn =>
          simp only at hb
          split at hb
          · split at hb
            · cases hb
            · cases hb; exact ⟨rfl, .inr ⟨e, .inr ⟨nn, rfl, rfl⟩⟩⟩
          · cases hb; exact ⟨rfl, .inr ⟨e, .inr ⟨nn, rfl, rfl⟩⟩⟩

theorem shallow_step_lt {mx : Option Nat} {e : Ev Nat × Nat} {o : Option (Ev Nat × Nat)}
    (hs : Shallow.stepFwd h mx e = .ok o) :
    e.1.node < h.nbrs.length ∨ (some e.2 = mx ∧ e.1 = .opn e.1.node ∧ o = some (.cls e.1.node, e.2)) := by
  obtain ⟨ev, d⟩ := e
  cases ev with
  | opn id =>
    simp only [Shallow.stepFwd] at hs
    split at hs
    · next hd => cases hs; exact .inr ⟨hd, rfl, rfl⟩
    · left
      unfold travNbr at hs
      cases hn : h.neighbors id with
      | none => rw [hn] at hs; simp [expect] at hs
      | some nb => exact nbr_lt hn
  | cls id =>
    left
    simp only [Shallow.stepFwd] at hs
    unfold travNbr at hs
    cases hn : h.neighbors id with
    | none => rw [hn] at hs; simp [expect] at hs
    | some nb => exact nbr_lt hn

theorem shallow_step_depth {D : Nat} {e nn : Ev Nat × Nat} (hs : Shallow.stepFwd h (some D) e = .ok (some nn))
    (hd : e.2 ≤ D) : nn.2 ≤ D := by
  obtain ⟨ev, d⟩ := e
  simp only at hd
  cases ev with
  | opn id =>
    simp only [Shallow.stepFwd, Option.some.injEq] at hs
    split at hs
    · cases hs; exact hd
    · next hne =>
      cases hn : travNbr h id with
      | error er => rw [hn] at hs; simp at hs
      | ok nb =>
        rw [hn] at hs
        simp only at hs
        cases hc : nb.firstChild with
        | error er => rw [hc] at hs; simp at hs
        | ok c =>
          rw [hc] at hs
          cases c with
          | none => cases hs; exact hd
          | some c => cases hs; simp only; omega
  | cls id =>
    simp only [Shallow.stepFwd] at hs
    cases hn : travNbr h id with
    | error er => rw [hn] at hs; simp at hs
    | ok nb =>
      rw [hn] at hs
      simp only at hs
      cases hc : nb.nextSibling with
      | error er => rw [hc] at hs; simp at hs
      | ok c =>
        rw [hc] at hs
        cases c with
        | some c => cases hs; exact hd
        | none =>
          simp only at hs
          cases hp : nb.getParent with
          | error er => rw [hp] at hs; simp at hs
          | ok po =>
            rw [hp] at hs
            cases po with
            | none => simp [expect] at hs
            | some p =>
              simp only [expect_some] at hs
              cases d with
              | zero => simp [Shallow.depthPred] at hs
              | succ d => simp only [Shallow.depthPred] at hs; cases hs; simp only; omega

/-- A number for an event, given `n` nodes; IDs that are out of range get the number of node `n`. -/
def evCode (n : Nat) : Ev Nat → Nat
  | .opn id => 2 * min id n
  | .cls id => 2 * min id n + 1

theorem evCode_lt (n : Nat) (e : Ev Nat) : evCode n e < 2 * (n + 1) := by
  cases e <;> simp only [evCode] <;> omega

theorem evCode_inj {n b : Nat} {e e' : Ev Nat} (he : e.node < n ∨ e.node = b) (he' : e'.node < n ∨ e'.node = b)
    (h : evCode n e = evCode n e') : e = e' := by
  cases e <;> cases e' <;> simp only [evCode, Ev.node, Ev.opn.injEq, Ev.cls.injEq, reduceCtorEq] at * <;> omega

theorem nextInner_fuel (depth : Nat) {inner : Shallow.St} {D : Nat} (hmx : inner.maxDepth = some D)
    (hd : ∀ nxt back, inner.next = some (nxt, back) → nxt.2 ≤ D) {F : Nat}
    (hF : 2 * (h.nbrs.length + 1) * (D + 1) + 1 < F) (k : Nat) :
    Bft.nextInner h depth (F + k) inner = Bft.nextInner h depth F inner := by
  have hL : IsLoop (Bft.nextInner h depth) (innerBody h depth) := by
    refine ⟨fun s => .inl rfl, fun k s => ?_⟩
    simp only [Bft.nextInner, innerBody]
    cases Shallow.next h s with
    | error e => rfl
    | ok r =>
      obtain ⟨o, st'⟩ := r
      cases o with
      | none => rfl
      | some p =>
        obtain ⟨ev, d⟩ := p
        simp only
        split
        · cases ev <;> rfl
        · rfl
  cases hnx : inner.next with
  | none =>
    have hb : ∀ j, Bft.nextInner h depth (j + 1) inner = .ok (none, inner) := by
      intro j
      obtain ⟨nx, m⟩ := inner
      simp only at hnx; subst hnx
      simp [Bft.nextInner, Shallow.next, deNext]
    obtain ⟨F', rfl⟩ : ∃ F', F = F' + 1 := ⟨F - 1, by omega⟩
    rw [show F' + 1 + k = (F' + k) + 1 by omega, hb, hb]
  | some p =>
    obtain ⟨nxt0, back⟩ := p
    let I : Shallow.St → Prop := fun s => s.maxDepth = some D ∧ ∀ nxt b, s.next = some (nxt, b) → b = back ∧ nxt.2 ≤ D
    have hlt2 : ∀ s s' s'', I s → stepOf (innerBody h depth) s = some s' → stepOf (innerBody h depth) s' = some s'' →
        ∃ nxt, s.next = some (nxt, back) ∧ (nxt.1.node < h.nbrs.length ∨ nxt.1.node = back.1.node) ∧ nxt.2 ≤ D := by
      intro s s' s'' hi h1 h2
      obtain ⟨nxt, b, e1, e2, hc⟩ := inner_step h1
      obtain ⟨nxt', b', e1', e2', hc'⟩ := inner_step h2
      obtain ⟨rfl, hle⟩ := hi.2 _ _ e1
      refine ⟨nxt, e1, ?_, hle⟩
      rcases hc with ⟨_, hn⟩ | ⟨hne, ⟨_, hn⟩ | ⟨nn, hst, hn⟩⟩
      · rw [hn] at e1'; cases e1'
      · rw [hn] at e1'; cases e1'
      · rw [hn] at e1'; cases e1'
        rcases shallow_step_lt hst with hl | ⟨_, ho, hq⟩
        · exact .inl hl
        · cases hq
          rcases hc' with ⟨hbk, _⟩ | ⟨_, ⟨hst', _⟩ | ⟨_, hst', _⟩⟩
          · right; rw [← hbk]; rfl
          · rcases shallow_step_lt hst' with hl | ⟨_, ho', _⟩
            · exact .inl hl
            · simp at ho'
          · rcases shallow_step_lt hst' with hl | ⟨_, ho', _⟩
            · exact .inl hl
            · simp at ho'
    refine hL.enough id (stepOf (innerBody h depth)) (fun s => by rw [Option.map_id_fun]; rfl) I ?_
      (N := 2 * (h.nbrs.length + 1) * (D + 1))
      (fun s => match s.next with
        | none => 0
        | some (nxt, _) => evCode h.nbrs.length nxt.1 * (D + 1) + nxt.2) ?_ ?_ hF ?_ k
    · intro s s' hi hs
      obtain ⟨nxt, b, e1, e2, hc⟩ := inner_step hs
      obtain ⟨rfl, hle⟩ := hi.2 _ _ e1
      refine ⟨by rw [e2]; exact hi.1, fun nxt' b' hn' => ?_⟩
      rcases hc with ⟨_, hn⟩ | ⟨hne, ⟨_, hn⟩ | ⟨nn, hst, hn⟩⟩
      · rw [hn] at hn'; cases hn'
      · rw [hn] at hn'; cases hn'
      · rw [hn] at hn'; cases hn'
        rw [hi.1] at hst
        exact ⟨rfl, shallow_step_depth hst hle⟩
    · intro s s' s'' hi h1 h2
      obtain ⟨nxt, e1, e2, hle⟩ := hlt2 s s' s'' hi h1 h2
      simp only [e1]
      have := evCode_lt h.nbrs.length nxt.1
      calc evCode h.nbrs.length nxt.1 * (D + 1) + nxt.2 < evCode h.nbrs.length nxt.1 * (D + 1) + (D + 1) := by omega
        _ = (evCode h.nbrs.length nxt.1 + 1) * (D + 1) := by rw [Nat.add_mul]; omega
        _ ≤ 2 * (h.nbrs.length + 1) * (D + 1) := Nat.mul_le_mul_right _ (by omega)
    · intro s s' s'' t t' t'' hi ht h1 h2 h3 h4 e
      obtain ⟨nxt, e1, e2, hle⟩ := hlt2 s s' s'' hi h1 h2
      obtain ⟨nxt', e1', e2', hle'⟩ := hlt2 t t' t'' ht h3 h4
      simp only [e1, e1'] at e
      have hd1 : nxt.2 = nxt'.2 := by
        have := congrArg (· % (D + 1)) e
        simp only [Nat.mul_comm _ (D + 1), Nat.mul_add_mod, Nat.mod_eq_of_lt (show nxt.2 < D + 1 by omega),
          Nat.mod_eq_of_lt (show nxt'.2 < D + 1 by omega)] at this
        exact this
      have hc1 : evCode h.nbrs.length nxt.1 = evCode h.nbrs.length nxt'.1 := by
        rw [hd1] at e
        exact Nat.eq_of_mul_eq_mul_right (show 0 < D + 1 by omega) (Nat.add_right_cancel e)
      have he1 := evCode_inj e2 e2' hc1
      have : nxt = nxt' := Prod.ext he1 hd1
      obtain ⟨sn, sm⟩ := s
      obtain ⟨tn, tm⟩ := t
      simp only at e1 e1'
      have hm1 := hi.1
      have hm2 := ht.1
      simp only at hm1 hm2
      rw [e1, e1', hm1, hm2, this]
    · refine ⟨hmx, fun nxt b hn => ?_⟩
      rw [id, hnx] at hn; cases hn
      exact ⟨rfl, hd _ _ hnx⟩

end Treena
