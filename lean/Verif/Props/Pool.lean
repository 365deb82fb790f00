import Verif.Proof.Pool
import Verif.Props.SampleRun
/-!
# C78: iterators may be kept, mixed and cloned freely
-/
set_option autoImplicit false

namespace Treena
variable {T : Type}

/-- **C78**.  Take any client that keeps as many iterators as it likes, of all kinds, uses them in any order, clones them half-way,
looks ahead, and makes other calls in between, deciding by all answers it has seen; a call that changes the forest ends its
iterators.  Its answers are those of an implementation in which an iterator is the list of the items still to be given, popped at
its ends, and a clone is a copy of that list. -/
theorem C78_iterators (cap um : Nat) (client : List (PoolAns T) → PoolReq T) (n : Nat) :
    (∃ rest, poolTranscript cap um client n (Forest.new, []) [] =
      Plain.poolTranscript cap um client n (Plain.empty, []) [] ++ rest) ∧
    ((Plain.poolTranscript cap um client n (Plain.empty, []) []).length = n →
      poolTranscript cap um client n (Forest.new, []) [] = Plain.poolTranscript cap um client n (Plain.empty, []) []) := by
  obtain ⟨rest, h1, h2⟩ := pool_run cap um client n [] (plain_new (T := T)) (p := []) (q := []) .nil
  refine ⟨⟨rest, h1⟩, fun h => ?_⟩
  have : rest = [] := List.length_eq_zero_iff.1 (by simp at h2; omega)
  rw [h1, this, List.append_nil]

/-- **C78** from any consistent forest instead of the empty one. -/
theorem C78_iterators_from {f : Forest T} {s : Shape} (hm : Models f s) : ∃ r : Plain T, ∀ (cap um : Nat)
    (client : List (PoolAns T) → PoolReq T) (n : Nat),
    (∃ rest, poolTranscript cap um client n (f, []) [] = Plain.poolTranscript cap um client n (r, []) [] ++ rest) ∧
    ((Plain.poolTranscript cap um client n (r, []) []).length = n →
      poolTranscript cap um client n (f, []) [] = Plain.poolTranscript cap um client n (r, []) []) := by
  obtain ⟨r, hr⟩ := plain_exists hm
  refine ⟨r, fun cap um client n => ?_⟩
  obtain ⟨rest, h1, h2⟩ := pool_run cap um client n [] hr (p := []) (q := []) .nil
  refine ⟨⟨rest, h1⟩, fun h => ?_⟩
  have : rest = [] := List.length_eq_zero_iff.1 (by simp at h2; omega)
  rw [h1, this, List.append_nil]

/-- What a client has after some calls on the modelled code. -/
def poolState (cap um : Nat) (cs : List (PoolReq T)) : Forest T × List Iter → Forest T × List Iter :=
  fun st => cs.foldl (fun st c => (c.exec cap um st).1) st

/-- What it has after the same calls on the naive implementation. -/
def Plain.poolState (cap um : Nat) : List (PoolReq T) → Plain T × List Deck → Option (Plain T × List Deck)
  | [], st => some st
  | c :: cs, st => match Plain.poolExec cap um st c with
    | some y => Plain.poolState cap um cs y.1
    | none => none

theorem pool_states (cap um : Nat) (cs : List (PoolReq T)) : ∀ {r : Plain T} {f : Forest T} {s : Shape} {p : List Iter}
    {q : List Deck} {y : Plain T × List Deck}, Plain.Abs r f s → PoolRel um f s p q →
    Plain.poolState cap um cs (r, q) = some y →
    ∃ s', Plain.Abs y.1 (poolState cap um cs (f, p)).1 s' ∧
      PoolRel um (poolState cap um cs (f, p)).1 s' (poolState cap um cs (f, p)).2 y.2 := by
  induction cs with
  | nil =>
    intro r f s p q y h hp hy
    simp only [Plain.poolState, Option.some.injEq] at hy
    subst hy
    exact ⟨s, h, hp⟩
  | cons c cs ih =>
    intro r f s p q y h hp hy
    simp only [Plain.poolState] at hy
    split at hy
    · rename_i z hz
      obtain ⟨_, s', h2, h3⟩ := pool_exec h hp cap c hz
      exact ih h2 h3 hy
    · cases hy

/-- **C78**, `size_hint`: at any time in any session of a client with a new forest, the `size_hint` of each allocating breadth-first
iterator it has encloses the number of the items still to be given. -/
theorem C78_size_hint (cap um : Nat) (cs : List (PoolReq T)) {y : Plain T × List Deck}
    (hy : Plain.poolState cap um cs (Plain.empty, []) = some y) {i : Nat} {st : ABft.St}
    (hi : (poolState cap um cs (Forest.new, [])).2[i]? = some (.abft st)) :
    ∃ d, y.2[i]? = some d ∧ (Forest.abftSizeHint st).1 ≤ d.rest.length ∧
      (∀ u, (Forest.abftSizeHint st).2 = some u → d.rest.length ≤ u) ∧
      (d.rest = [] → Forest.abftSizeHint st = (0, some 0)) := by
  obtain ⟨s', h1, h2⟩ := pool_states cap um cs (plain_new (T := T)) (p := []) (q := []) .nil hy
  rcases h2.get i with ⟨it, d, h3, h4, h5⟩ | ⟨h3, _⟩
  · rw [hi] at h3
    cases h3
    cases h5 with
    | abft h =>
      have := abft_sizeHint h
      exact ⟨_, h4, by simpa [Forest.abftSizeHint] using this.1, by simpa [Forest.abftSizeHint] using this.2,
        fun hd => (abft_sizeHint_end h).1 (by simpa using hd)⟩
  · rw [hi] at h3; cases h3

/-- **C78**: with a new forest the two implementations have corresponding iterators at all times: as many, and each iterator gives,
forwards, exactly the items of its naive counterpart and then nothing more. -/
theorem C78_rest (cap um : Nat) (cs : List (PoolReq T)) {y : Plain T × List Deck}
    (hy : Plain.poolState cap um cs (Plain.empty, []) = some y) :
    (poolState cap um cs (Forest.new, [])).2.length = y.2.length ∧
    ∀ (i : Nat) (it : Iter) (d : Deck), (poolState cap um cs (Forest.new, [])).2[i]? = some it → y.2[i]? = some d →
      ∀ n, pull (Iter.next um (poolState cap um cs (Forest.new, [])).1) n it = .ok (pulls d.rest n) := by
  obtain ⟨s', h1, h2⟩ := pool_states cap um cs (plain_new (T := T)) (p := []) (q := []) .nil hy
  refine ⟨h2.length_eq, fun i it d hi hd n => ?_⟩
  rcases h2.get i with ⟨it', d', h3, h4, h5⟩ | ⟨h3, _⟩
  · rw [hi] at h3; rw [hd] at h4
    cases h3; cases h4
    exact pull_inv (Inv := fun it L => ∃ d, Plays um (poolState cap um cs (Forest.new, [])).1 s' it d ∧ d.rest = L)
      (fun it L ⟨d, h, e⟩ => by
        subst e
        obtain ⟨it', h1', h2'⟩ := h.next h1.models
        exact ⟨it', h1', _, h2', rfl⟩) n it d.rest ⟨d, h5, rfl⟩
  · rw [hi] at h3; cases h3

/-! ### Examples -/

namespace C78

/-- A session: a tree with three nodes; a depth-first iterator is advanced, cloned, the copy is emptied from the back while the
first is kept; another iterator and a look at the forest in between; then the forest is changed and the iterators are gone. -/
def client (seen : List (PoolAns Char)) : PoolReq Char :=
  [PoolReq.call (.createRoot 'a'), .call (.createInsert 'b' (.lastChildOf 0)), .call (.createInsert 'c' (.lastChildOf 0)),
    .start (.dft 0), .next 0, .dup 0, .nextBack 1, .nextBack 1, .start (.abft 0), .peek 2, .next 0, .next 2, .peekBack 1,
    .nextBack 2, .call (.data 1), .peek 0, .call (.detach 1), .next 0][seen.length]?.getD (.next 99)

/-- What it sees, in both implementations. -/
def answers : List (PoolAns Char) :=
  [.call (.id 0), .call (.id 1), .call (.id 2), .opened, .item (some (.event (.opn 0))), .opened, .item (some (.event (.cls 0))),
    .item (some (.event (.cls 2))), .opened, .item (some (.level (0, 0))), .item (some (.event (.opn 1))),
    .item (some (.level (0, 0))), .item (some (.event (.opn 2))), .noMethod, .call (.datum (some 'b')),
    .item (some (.event (.cls 1))), .call .done, .noMethod]

example : poolTranscript 10 100 client 18 (Forest.new, []) [] = answers := by decide +kernel
example : Plain.poolTranscript 10 100 client 18 (Plain.empty, []) [] = answers := by decide +kernel

end C78

/-! ### The hypotheses can be met

Each example applies the theorem named in its comment to a concrete forest. -/

section
/-- `C78_iterators_from`: the sample forest. -/
example := C78_iterators_from Sample.models

/-- `C78_rest`: two iterators on a forest of two nodes. -/
example := C78_rest (T := Char) 10 100 [.call (.createRoot 'a'), .call (.createInsert 'b' (.lastChildOf 0)), .start (.abft 0), .next 0, .start (.dft 0)] rfl

/-- `C78_size_hint`: the first of them, half used. -/
example := C78_size_hint (T := Char) 10 100 [.call (.createRoot 'a'), .call (.createInsert 'b' (.lastChildOf 0)), .start (.abft 0), .next 0, .start (.dft 0)] rfl (i := 0) rfl

end

end Treena
