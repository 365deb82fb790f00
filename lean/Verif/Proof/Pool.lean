import Verif.Spec.Pool
import Verif.Props.Plain
/-! Clients that keep iterators. -/
set_option autoImplicit false

namespace Treena
variable {T : Type}

/-- The state acts as the deque `L`. -/
def Deq {ι σ : Type} (next nextBack : σ → R (Option ι × σ)) (st : σ) (L : List ι) : Prop :=
  ∀ ds, drive next nextBack st ds = .ok (dequeRun L ds)

theorem Deq.front {ι σ : Type} {next nextBack : σ → R (Option ι × σ)} {st : σ} {L : List ι} (h : Deq next nextBack st L) :
    ∃ st', next st = .ok (L.head?, st') ∧ Deq next nextBack st' L.tail := by
  have h0 := h [.front]
  simp only [drive, dequeRun] at h0
  cases hn : next st with
  | error e => rw [hn] at h0; simp at h0
  | ok p =>
    obtain ⟨o, st'⟩ := p
    rw [hn] at h0
    have ho : o = L.head? := by simpa using h0
    subst ho
    refine ⟨st', rfl, fun ds => ?_⟩
    have h1 := h (.front :: ds)
    simp only [drive, dequeRun, hn] at h1
    cases hd : drive next nextBack st' ds with
    | error e => rw [hd] at h1; simp at h1
    | ok os => rw [hd] at h1; simpa using h1

theorem Deq.back {ι σ : Type} {next nextBack : σ → R (Option ι × σ)} {st : σ} {L : List ι} (h : Deq next nextBack st L) :
    ∃ st', nextBack st = .ok (L.getLast?, st') ∧ Deq next nextBack st' L.dropLast := by
  have h0 := h [.back]
  simp only [drive, dequeRun] at h0
  cases hn : nextBack st with
  | error e => rw [hn] at h0; simp at h0
  | ok p =>
    obtain ⟨o, st'⟩ := p
    rw [hn] at h0
    have ho : o = L.getLast? := by simpa using h0
    subst ho
    refine ⟨st', rfl, fun ds => ?_⟩
    have h1 := h (.back :: ds)
    simp only [drive, dequeRun, hn] at h1
    cases hd : drive next nextBack st' ds with
    | error e => rw [hd] at h1; simp at h1
    | ok os => rw [hd] at h1; simpa using h1

/-- The state gives the items of `L`, then none. -/
def Seq1 {ι σ : Type} (next : σ → R (Option ι × σ)) (st : σ) (L : List ι) : Prop :=
  ∀ n, pull next n st = .ok (pulls L n)

theorem Seq1.front {ι σ : Type} {next : σ → R (Option ι × σ)} {st : σ} {L : List ι} (h : Seq1 next st L) :
    ∃ st', next st = .ok (L.head?, st') ∧ Seq1 next st' L.tail := by
  have h0 := h 1
  simp only [pull, pulls_succ] at h0
  cases hn : next st with
  | error e => rw [hn] at h0; simp at h0
  | ok p =>
    obtain ⟨o, st'⟩ := p
    rw [hn] at h0
    have ho : o = L.head? := by simpa using (List.cons.inj (Except.ok.inj h0)).1
    subst ho
    refine ⟨st', rfl, fun n => ?_⟩
    have h1 := h (n + 1)
    simp only [pull, pulls_succ, hn] at h1
    cases hd : pull next n st' with
    | error e => rw [hd] at h1; simp at h1
    | ok os => rw [hd] at h1; simpa using h1

variable {f : Forest T} {s : Shape} {um : Nat}

/-- The iterator and its naive counterpart. -/
inductive Plays (um : Nat) (f : Forest T) (s : Shape) : Iter → Deck → Prop
  | dft {st L} (h : Deq f.dftNext f.dftNextBack st L) : Plays um f s (.dft st) ⟨.dft, none, L.map .event⟩
  | shallow {st L m} (h : Deq f.shallowNext f.shallowNextBack st L) (hm : st.maxDepth = m) :
      Plays um f s (.shallow st) ⟨.shallow, m, L.map .deep⟩
  | bft {st L} (h : Seq1 (f.bftNext um) st L) : Plays um f s (.bft st) ⟨.bft, none, L.map .level⟩
  | abft {st L} (h : ABftInv s st L) : Plays um f s (.abft st) ⟨.abft, none, L.map .level⟩
  | ancestors {st L} (h : Seq1 f.ancestorsNext st L) : Plays um f s (.ancestors st) ⟨.ancestors, none, L.map .node⟩
  | siblings {st L} (h : Deq f.siblingsNext f.siblingsNextBack st L) :
      Plays um f s (.siblings st) ⟨.siblings, none, L.map .node⟩

theorem shallow_keeps_max {st st' : Shallow.St} {o : Option (Ev Nat × Nat)}
    (h : f.shallowNext st = .ok (o, st') ∨ f.shallowNextBack st = .ok (o, st')) : st'.maxDepth = st.maxDepth := by
  rcases h with h | h
  · have := (emit_inv h).1
    unfold Shallow.next at this
    split at this
    · cases this
    · cases this; rfl
  · have := (emit_inv h).1
    unfold Shallow.nextBack at this
    split at this
    · cases this
    · cases this; rfl

theorem playsTail {ι : Type} {it : Iter} {k : IterKind} {m : Option Nat} {g : ι → Item} {L : List ι}
    (h : Plays um f s it ⟨k, m, L.tail.map g⟩) : Plays um f s it ⟨k, m, (L.map g).tail⟩ := by
  rwa [List.map_tail] at h
theorem playsInit {ι : Type} {it : Iter} {k : IterKind} {m : Option Nat} {g : ι → Item} {L : List ι}
    (h : Plays um f s it ⟨k, m, L.dropLast.map g⟩) : Plays um f s it ⟨k, m, (L.map g).dropLast⟩ := by
  rwa [List.map_dropLast] at h

theorem Plays.next (hm : Models f s) {it : Iter} {d : Deck} (h : Plays um f s it d) :
    ∃ it', it.next um f = .ok (d.rest.head?, it') ∧ Plays um f s it' { d with rest := d.rest.tail } := by
  cases h with
  | dft h =>
    obtain ⟨st', h1, h2⟩ := h.front
    exact ⟨.dft st', by simp only [Iter.next, h1, Iter.lift, List.head?_map], playsTail (.dft h2)⟩
  | shallow h hx =>
    obtain ⟨st', h1, h2⟩ := h.front
    exact ⟨.shallow st', by simp only [Iter.next, h1, Iter.lift, List.head?_map],
      playsTail (.shallow h2 ((shallow_keeps_max (.inl h1)).trans hx))⟩
  | bft h =>
    obtain ⟨st', h1, h2⟩ := h.front
    exact ⟨.bft st', by simp only [Iter.next, h1, Iter.lift, List.head?_map], playsTail (.bft h2)⟩
  | abft h =>
    obtain ⟨st', h1, h2⟩ := abftNext_inv hm _ _ h
    exact ⟨.abft st', by simp only [Iter.next, h1, Iter.lift, List.head?_map], playsTail (.abft h2)⟩
  | ancestors h =>
    obtain ⟨st', h1, h2⟩ := h.front
    exact ⟨.ancestors st', by simp only [Iter.next, h1, Iter.lift, List.head?_map], playsTail (.ancestors h2)⟩
  | siblings h =>
    obtain ⟨st', h1, h2⟩ := h.front
    exact ⟨.siblings st', by simp only [Iter.next, h1, Iter.lift, List.head?_map], playsTail (.siblings h2)⟩

theorem Plays.back {it : Iter} {d : Deck} (h : Plays um f s it d) :
    (d.kind.double = true ∧ ∃ it', it.nextBack f = some (.ok (d.rest.getLast?, it')) ∧
      Plays um f s it' { d with rest := d.rest.dropLast }) ∨ (d.kind.double = false ∧ it.nextBack f = none) := by
  cases h with
  | dft h =>
    obtain ⟨st', h1, h2⟩ := h.back
    exact .inl ⟨rfl, .dft st', by simp only [Iter.nextBack, h1, Iter.lift, List.getLast?_map], playsInit (.dft h2)⟩
  | shallow h hx =>
    obtain ⟨st', h1, h2⟩ := h.back
    exact .inl ⟨rfl, .shallow st', by simp only [Iter.nextBack, h1, Iter.lift, List.getLast?_map],
      playsInit (.shallow h2 ((shallow_keeps_max (.inr h1)).trans hx))⟩
  | siblings h =>
    obtain ⟨st', h1, h2⟩ := h.back
    exact .inl ⟨rfl, .siblings st', by simp only [Iter.nextBack, h1, Iter.lift, List.getLast?_map], playsInit (.siblings h2)⟩
  | bft h => exact .inr ⟨rfl, rfl⟩
  | abft h => exact .inr ⟨rfl, rfl⟩
  | ancestors h => exact .inr ⟨rfl, rfl⟩

theorem Plays.peek (hm : Models f s) {it : Iter} {d : Deck} (h : Plays um f s it d) :
    (d.kind.peeks = true ∧ it.peek f = some (.ok d.rest.head?)) ∨ (d.kind.peeks = false ∧ it.peek f = none) := by
  obtain ⟨p1, p2, p3, p4, p5, p6, p7⟩ := C27_peek f
  cases h with
  | dft h =>
    obtain ⟨st', h1, h2⟩ := h.front
    exact .inl ⟨rfl, by simp only [Iter.peek, p1 _ _ _ h1, Iter.lift1, List.head?_map]⟩
  | shallow h hx =>
    obtain ⟨st', h1, h2⟩ := h.front
    exact .inl ⟨rfl, by simp only [Iter.peek, p3 _ _ _ h1, Iter.lift1, List.head?_map]⟩
  | siblings h =>
    obtain ⟨st', h1, h2⟩ := h.front
    exact .inl ⟨rfl, by simp only [Iter.peek, p5 _ _ _ h1, Iter.lift1, List.head?_map]⟩
  | bft h => exact .inr ⟨rfl, rfl⟩
  | abft h => exact .inl ⟨rfl, by simp only [Iter.peek, abft_peek hm h, Iter.lift1, List.head?_map]⟩
  | ancestors h =>
    obtain ⟨st', h1, h2⟩ := h.front
    exact .inl ⟨rfl, by simp only [Iter.peek, p7 _ _ _ h1, Iter.lift1, List.head?_map]⟩

theorem Plays.peekBack {it : Iter} {d : Deck} (h : Plays um f s it d) :
    (d.kind.double = true ∧ it.peekBack f = some (.ok d.rest.getLast?)) ∨ (d.kind.double = false ∧ it.peekBack f = none) := by
  obtain ⟨p1, p2, p3, p4, p5, p6, p7⟩ := C27_peek f
  cases h with
  | dft h =>
    obtain ⟨st', h1, h2⟩ := h.back
    exact .inl ⟨rfl, by simp only [Iter.peekBack, p2 _ _ _ h1, Iter.lift1, List.getLast?_map]⟩
  | shallow h hx =>
    obtain ⟨st', h1, h2⟩ := h.back
    exact .inl ⟨rfl, by simp only [Iter.peekBack, p4 _ _ _ h1, Iter.lift1, List.getLast?_map]⟩
  | siblings h =>
    obtain ⟨st', h1, h2⟩ := h.back
    exact .inl ⟨rfl, by simp only [Iter.peekBack, p6 _ _ _ h1, Iter.lift1, List.getLast?_map]⟩
  | bft h => exact .inr ⟨rfl, rfl⟩
  | abft h => exact .inr ⟨rfl, rfl⟩
  | ancestors h => exact .inr ⟨rfl, rfl⟩

theorem Plays.maxDepth {it : Iter} {d : Deck} (h : Plays um f s it d) :
    (d.kind = .shallow ∧ it.maxDepth = some d.max) ∨ (d.kind ≠ .shallow ∧ it.maxDepth = none) := by
  cases h with
  | shallow h hx => exact .inl ⟨rfl, by simp [Iter.maxDepth, Forest.shallowMaxDepth, hx]⟩
  | _ => exact .inr ⟨nofun, rfl⟩

open Plain Wood in
theorem plays_start {r : Plain T} (h : Plain.Abs r f s) (q : IterReq) :
    (∃ d it, r.deck um q = some d ∧ Iter.start um f q = .ok it ∧ Plays um f s it d) ∨
    (∃ msg, r.deck um q = none ∧ Iter.start um f q = .error (.panic msg)) := by
  have hm := h.models
  cases q with
  | dft x =>
    rcases h.find x with ⟨hx, e⟩ | ⟨hx, u, e, hu, ht⟩
    · obtain ⟨msg, h1⟩ := C19_dead hm hx
      exact .inr ⟨msg, by simp [Plain.deck, e], by simp only [Iter.start, h1, Iter.made]⟩
    · obtain ⟨st, h1, h2⟩ := C20_dft_deque hm hx ht (by rw [root_sk, hu])
      exact .inl ⟨_, _, by simp only [Plain.deck, e, Option.map_some]; rfl, by simp only [Iter.start, h1, Iter.made], .dft h2⟩
  | shallow x max =>
    rcases h.find x with ⟨hx, e⟩ | ⟨hx, u, e, hu, ht⟩
    · obtain ⟨msg, h1⟩ := iterNew_dead hm hx fun n h => Shallow.withToplevelAndMaxDepth um n h max
      exact .inr ⟨msg, by simp [Plain.deck, e], by simp only [Iter.start, Forest.shallowDepthFirstTraverse, h1, Iter.made]⟩
    · subst hu
      rw [← root_sk] at hx e ⊢
      exact .inl ⟨_, _, by simp only [Plain.deck, e, Option.map_some]; rfl,
        by simp only [Iter.start]; rw [shallow_start um hm hx]; rfl, .shallow (m := Shallow.collapseMax um max) (shallow_drive hm ht hx (Shallow.collapseMax um max)) rfl⟩
  | bft x =>
    rcases h.find x with ⟨hx, e⟩ | ⟨hx, u, e, hu, ht⟩
    · obtain ⟨msg, h1⟩ := iterNew_dead hm hx (Bft.withToplevel um)
      exact .inr ⟨msg, by simp [Plain.deck, e], by simp only [Iter.start, Forest.breadthFirstTraverse, h1, Iter.made]⟩
    · obtain ⟨st, h1, h2⟩ := C22_breadth_first um hm hx ht (by rw [root_sk, hu])
      exact .inl ⟨_, _, by simp only [Plain.deck, e, Option.map_some]; rfl, by simp only [Iter.start, h1, Iter.made], .bft h2⟩
  | abft x =>
    rcases h.find x with ⟨hx, e⟩ | ⟨hx, u, e, hu, ht⟩
    · obtain ⟨msg, h1⟩ := iterNew_dead hm hx ABft.withToplevel
      exact .inr ⟨msg, by simp [Plain.deck, e], by simp only [Iter.start, Forest.allocatingBreadthFirstTraverse, h1, Iter.made]⟩
    · subst hu
      rw [← root_sk] at hx e ⊢
      obtain ⟨st, h1, h2⟩ := abft_start hm ht hx
      exact .inl ⟨_, _, by simp only [Plain.deck, e, Option.map_some]; rfl, by simp only [Iter.start, h1, Iter.made], .abft h2⟩
  | ancestors x self =>
    rcases h.find x with ⟨hx, e⟩ | ⟨hx, u, e, hu, ht⟩
    · obtain ⟨msg, h1⟩ := iterNew_dead hm hx Ancestors.withStart
      refine .inr ⟨msg, by simp [Plain.deck, e], ?_⟩
      cases self
      · simp only [Iter.start, Forest.ancestors, Forest.ancestorsOrSelf]
        rw [if_neg (by simp), skipped_error _ h1]; rfl
      · simp only [Iter.start, Forest.ancestorsOrSelf]
        rw [if_pos trivial, h1]; rfl
    · obtain ⟨L, hL, ⟨st, h1, h2⟩, ⟨st', h3, h4⟩⟩ := C24_ancestors hm hx
      have hl := hm.valid.path_length hL hx
      have hp := h.path hL (r.issued + 1) (by rw [← h.size]; omega)
      cases self
      · exact .inl ⟨_, .ancestors st', by simp only [Plain.deck, e, Option.map_some, hp]; rfl,
          by simp only [Iter.start]; rw [if_neg (by simp), h3]; rfl, .ancestors h4⟩
      · exact .inl ⟨_, .ancestors st, by simp only [Plain.deck, e, Option.map_some, hp]; rfl,
          by simp only [Iter.start]; rw [if_pos trivial, h1]; rfl, .ancestors h2⟩
  | row x k =>
    rcases h.find x with ⟨hx, e⟩ | ⟨hx, u, e, hu, ht⟩
    · obtain ⟨msg, h1⟩ := rowOf_dead hm hx k
      exact .inr ⟨msg, by simp [Plain.deck, e], by simp only [Iter.start, h1, Iter.made]⟩
    · obtain ⟨st, h1, _, h3⟩ := h.row hx k
      exact .inl ⟨_, _, by simp only [Plain.deck, e, Option.map_some], by simp only [Iter.start, h1, Iter.made], .siblings h3⟩

/-- The two pools correspond. -/
def PoolRel (um : Nat) (f : Forest T) (s : Shape) (p : List Iter) (q : List Deck) : Prop :=
  List.Forall₂ (Plays um f s) p q

theorem PoolRel.get {p : List Iter} {q : List Deck} (h : PoolRel um f s p q) (i : Nat) :
    (∃ it d, p[i]? = some it ∧ q[i]? = some d ∧ Plays um f s it d) ∨ (p[i]? = none ∧ q[i]? = none) := by
  induction h generalizing i with
  | nil => right; simp
  | cons h _ ih =>
    cases i with
    | zero => exact .inl ⟨_, _, rfl, rfl, h⟩
    | succ i => simpa using ih i

theorem PoolRel.set {p : List Iter} {q : List Deck} (h : PoolRel um f s p q) (i : Nat) {it : Iter} {d : Deck}
    (hn : Plays um f s it d) : PoolRel um f s (p.set i it) (q.set i d) := by
  unfold PoolRel at *
  induction h generalizing i with
  | nil => exact .nil
  | cons h h' ih =>
    cases i with
    | zero => exact .cons hn h'
    | succ i => exact .cons h (ih i)

theorem PoolRel.push {p : List Iter} {q : List Deck} (h : PoolRel um f s p q) {it : Iter} {d : Deck}
    (hn : Plays um f s it d) : PoolRel um f s (p ++ [it]) (q ++ [d]) := by
  unfold PoolRel at *
  induction h with
  | nil => exact .cons hn .nil
  | cons h _ ih => exact .cons h ih

theorem pool_exec {r : Plain T} (h : Plain.Abs r f s) {p : List Iter} {q : List Deck} (hp : PoolRel um f s p q) (cap : Nat)
    (c : PoolReq T) {y : (Plain T × List Deck) × PoolAns T} (he : Plain.poolExec cap um (r, q) c = some y) :
    (c.exec cap um (f, p)).2 = y.2 ∧ ∃ s', Plain.Abs y.1.1 (c.exec cap um (f, p)).1.1 s' ∧
      PoolRel um (c.exec cap um (f, p)).1.1 s' (c.exec cap um (f, p)).1.2 y.1.2 := by
  have hm := h.models
  cases c with
  | call c =>
    simp only [Plain.poolExec, Option.map_eq_some_iff] at he
    obtain ⟨z, hz, rfl⟩ := he
    obtain ⟨h1, s', h2⟩ := h.exec cap um c hz
    cases hb : c.borrows with
    | false =>
      exact ⟨by simp only [PoolReq.exec, h1], s', by simp only [PoolReq.exec]; exact h2, by simp [PoolReq.exec, hb]; exact .nil⟩
    | true =>
      have e1 : (c.exec cap um f).1 = f := by cases c <;> first | rfl | simp [Req.borrows] at hb
      have e2 : z.1 = r := by
        cases c with
        | print x pieces =>
          simp only [Plain.exec, Option.some.injEq] at hz; rw [← hz, Plain.print, Plain.at_]; split <;> rfl
        | near => cases hz; rfl
        | nearEnds => cases hz; rfl
        | alive => cases hz; rfl
        | data => cases hz; rfl
        | link => cases hz; rfl
        | ends => cases hz; rfl
        | dft x => simp only [Plain.exec, Option.some.injEq] at hz; rw [← hz, Plain.at_]; split <;> rfl
        | shallow x => simp only [Plain.exec, Option.some.injEq] at hz; rw [← hz, Plain.at_]; split <;> rfl
        | bft x => simp only [Plain.exec, Option.some.injEq] at hz; rw [← hz, Plain.at_]; split <;> rfl
        | abft x => simp only [Plain.exec, Option.some.injEq] at hz; rw [← hz, Plain.at_]; split <;> rfl
        | ancestors x => simp only [Plain.exec, Option.some.injEq] at hz; rw [← hz, Plain.at_]; split <;> rfl
        | row x => simp only [Plain.exec, Option.some.injEq] at hz; rw [← hz, Plain.at_]; split <;> rfl
        | _ => simp [Req.borrows] at hb
      refine ⟨by simp only [PoolReq.exec, h1], s, ?_, ?_⟩
      · simp only [PoolReq.exec, e1, e2]; exact h
      · simp only [PoolReq.exec, e1, hb, if_true]; exact hp
  | start q' =>
    simp only [Plain.poolExec, Option.some.injEq] at he
    subst he
    rcases plays_start (um := um) h q' with ⟨d, it, h1, h2, h3⟩ | ⟨msg, h1, h2⟩
    · simp only [PoolReq.exec, h1, h2]; exact ⟨by trivial, s, h, hp.push h3⟩
    · simp only [PoolReq.exec, h1, h2]; exact ⟨rfl, s, h, hp⟩
  | next i =>
    simp only [Plain.poolExec, Option.some.injEq] at he
    subst he
    rcases hp.get i with ⟨it, d, h1, h2, h3⟩ | ⟨h1, h2⟩
    · obtain ⟨it', h4, h5⟩ := h3.next hm
      simp only [PoolReq.exec, h1, h2, h4]; exact ⟨by trivial, s, h, hp.set i h5⟩
    · simp only [PoolReq.exec, h1, h2]; exact ⟨by trivial, s, h, hp⟩
  | nextBack i =>
    simp only [Plain.poolExec, Option.some.injEq] at he
    subst he
    rcases hp.get i with ⟨it, d, h1, h2, h3⟩ | ⟨h1, h2⟩
    · rcases h3.back with ⟨h6, it', h4, h5⟩ | ⟨h4, h5⟩
      · simp only [PoolReq.exec, h1, h2, h4, h6, if_true]; exact ⟨by trivial, s, h, hp.set i h5⟩
      · simp [PoolReq.exec, h1, h2, h4, h5]; exact ⟨s, h, hp⟩
    · simp only [PoolReq.exec, h1, h2]; exact ⟨by trivial, s, h, hp⟩
  | peek i =>
    simp only [Plain.poolExec, Option.some.injEq] at he
    subst he
    rcases hp.get i with ⟨it, d, h1, h2, h3⟩ | ⟨h1, h2⟩
    · rcases h3.peek hm with ⟨h4, h5⟩ | ⟨h4, h5⟩
      · simp [PoolReq.exec, h1, h2, h4, h5]; exact ⟨s, h, hp⟩
      · simp [PoolReq.exec, h1, h2, h4, h5]; exact ⟨s, h, hp⟩
    · simp only [PoolReq.exec, h1, h2]; exact ⟨by trivial, s, h, hp⟩
  | peekBack i =>
    simp only [Plain.poolExec, Option.some.injEq] at he
    subst he
    rcases hp.get i with ⟨it, d, h1, h2, h3⟩ | ⟨h1, h2⟩
    · rcases h3.peekBack with ⟨h4, h5⟩ | ⟨h4, h5⟩
      · simp [PoolReq.exec, h1, h2, h4, h5]; exact ⟨s, h, hp⟩
      · simp [PoolReq.exec, h1, h2, h4, h5]; exact ⟨s, h, hp⟩
    · simp only [PoolReq.exec, h1, h2]; exact ⟨by trivial, s, h, hp⟩
  | maxDepth i =>
    simp only [Plain.poolExec, Option.some.injEq] at he
    subst he
    rcases hp.get i with ⟨it, d, h1, h2, h3⟩ | ⟨h1, h2⟩
    · rcases h3.maxDepth with ⟨h4, h5⟩ | ⟨h4, h5⟩
      · simp [PoolReq.exec, h1, h2, h4, h5]; exact ⟨s, h, hp⟩
      · simp [PoolReq.exec, h1, h2, h4, h5]; exact ⟨s, h, hp⟩
    · simp only [PoolReq.exec, h1, h2]; exact ⟨by trivial, s, h, hp⟩
  | dup i =>
    simp only [Plain.poolExec, Option.some.injEq] at he
    subst he
    rcases hp.get i with ⟨it, d, h1, h2, h3⟩ | ⟨h1, h2⟩
    · simp only [PoolReq.exec, h1, h2]; exact ⟨by trivial, s, h, hp.push h3⟩
    · simp only [PoolReq.exec, h1, h2]; exact ⟨by trivial, s, h, hp⟩

theorem pool_grow (cap um : Nat) (client : List (PoolAns T) → PoolReq T) : ∀ (k : Nat) (g : Forest T × List Iter)
    (l : List (PoolAns T)), ∃ rest, poolTranscript cap um client k g l = l ++ rest ∧ rest.length = k := by
  intro k
  induction k with
  | zero => intro g l; exact ⟨[], by simp [poolTranscript], rfl⟩
  | succ k ih =>
    intro g l
    obtain ⟨rest, h1, h2⟩ := ih ((client l).exec cap um g).1 (l ++ [((client l).exec cap um g).2])
    exact ⟨((client l).exec cap um g).2 :: rest, by simp [poolTranscript, h1], by simp [h2]⟩

theorem pool_run (cap um : Nat) (client : List (PoolAns T) → PoolReq T) : ∀ (n : Nat) {r : Plain T} {f : Forest T} {s : Shape}
    {p : List Iter} {q : List Deck} (seen : List (PoolAns T)), Plain.Abs r f s → PoolRel um f s p q →
    ∃ rest, poolTranscript cap um client n (f, p) seen = Plain.poolTranscript cap um client n (r, q) seen ++ rest ∧
      rest.length + (Plain.poolTranscript cap um client n (r, q) seen).length = seen.length + n
  | 0, r, f, s, p, q, seen, h, hp => ⟨[], by simp [poolTranscript, Plain.poolTranscript], by simp [Plain.poolTranscript]⟩
  | n + 1, r, f, s, p, q, seen, h, hp => by
    cases he : Plain.poolExec cap um (r, q) (client seen) with
    | none =>
      obtain ⟨rest, h1, h2⟩ := pool_grow cap um client (n + 1) (f, p) seen
      exact ⟨rest, by simp only [Plain.poolTranscript, he, h1], by simp only [Plain.poolTranscript, he, h2]; omega⟩
    | some y =>
      obtain ⟨h1, s', h2, h2'⟩ := pool_exec h hp cap (client seen) he
      obtain ⟨⟨r', q'⟩, a⟩ := y
      obtain ⟨rest, h3, h4⟩ := pool_run cap um client n (seen ++ [a]) h2 h2'
      refine ⟨rest, ?_, ?_⟩
      · simp only [Plain.poolTranscript, he, poolTranscript, h1]
        exact h3
      · simp only [Plain.poolTranscript, he, h4, List.length_append, List.length_singleton]; omega

end Treena
