import Verif.Spec.StdIter
import Verif.Proof.Pool
/-! Loops over iterators. -/
set_option autoImplicit false

namespace Treena
variable {ι σ α β : Type} {next : σ → R (Option ι × σ)} {Has : σ → List ι → Prop}

/-- `Has` is kept by `next`. -/
def Steps (next : σ → R (Option ι × σ)) (Has : σ → List ι → Prop) : Prop :=
  ∀ st L, Has st L → ∃ st', next st = .ok (L.head?, st') ∧ Has st' L.tail

theorem tryFold_spec (hs : Steps next Has) (body : α → ι → Flow α β) : ∀ (L : List ι) (n : Nat) (st : σ) (a : α),
    L.length < n → Has st L → ∃ st',
    StdIter.tryFold next body n st a = .ok ((loopOver body L a).1, st') ∧ Has st' (loopOver body L a).2 := by
  intro L
  induction L with
  | nil =>
    intro n st a hn h
    obtain ⟨n, rfl⟩ : ∃ m, n = m + 1 := ⟨n - 1, by simp at hn; omega⟩
    obtain ⟨st', h1, h2⟩ := hs st _ h
    exact ⟨st', by simp only [StdIter.tryFold, h1, List.head?_nil, loopOver], by simpa [loopOver] using h2⟩
  | cons i L ih =>
    intro n st a hn h
    obtain ⟨n, rfl⟩ : ∃ m, n = m + 1 := ⟨n - 1, by simp at hn; omega⟩
    obtain ⟨st', h1, h2⟩ := hs st _ h
    simp only [StdIter.tryFold, h1, List.head?_cons, loopOver]
    cases body a i with
    | goOn a' => exact ih n st' a' (by simp at hn; omega) h2
    | leave b => exact ⟨st', rfl, h2⟩
    | panic => exact ⟨st', rfl, h2⟩

theorem fold_spec (hs : Steps next Has) (g : α → ι → α) : ∀ (L : List ι) (n : Nat) (st : σ) (a : α),
    L.length < n → Has st L → StdIter.fold next g n st a = .ok (L.foldl g a) := by
  intro L
  induction L with
  | nil =>
    intro n st a hn h
    obtain ⟨n, rfl⟩ : ∃ m, n = m + 1 := ⟨n - 1, by simp at hn; omega⟩
    obtain ⟨st', h1, h2⟩ := hs st _ h
    simp only [StdIter.fold, h1, List.head?_nil, List.foldl_nil]
  | cons i L ih =>
    intro n st a hn h
    obtain ⟨n, rfl⟩ : ∃ m, n = m + 1 := ⟨n - 1, by simp at hn; omega⟩
    obtain ⟨st', h1, h2⟩ := hs st _ h
    simp only [StdIter.fold, h1, List.head?_cons, List.foldl_cons]
    exact ih n st' _ (by simp at hn; omega) h2

theorem advanceBy_spec (hs : Steps next Has) : ∀ (k : Nat) (L : List ι) (st : σ), Has st L →
    ∃ st', StdIter.advanceBy next k st = .ok (decide (k ≤ L.length), st') ∧ Has st' (L.drop k) := by
  intro k
  induction k with
  | zero => intro L st h; exact ⟨st, by simp [StdIter.advanceBy], by simpa using h⟩
  | succ k ih =>
    intro L st h
    obtain ⟨st', h1, h2⟩ := hs st _ h
    cases L with
    | nil =>
      exact ⟨st', by simp only [StdIter.advanceBy, h1, List.head?_nil]; simp, by simpa using h2⟩
    | cons i L =>
      obtain ⟨st'', h3, h4⟩ := ih L st' h2
      exact ⟨st'', by simp only [StdIter.advanceBy, h1, List.head?_cons, h3]; simp, by simpa using h4⟩

theorem nth_spec (hs : Steps next Has) (k : Nat) (L : List ι) (st : σ) (h : Has st L) :
    ∃ st', StdIter.nth next k st = .ok (L[k]?, st') ∧ Has st' (L.drop (k + 1)) := by
  obtain ⟨st', h1, h2⟩ := advanceBy_spec hs k L st h
  by_cases hk : k ≤ L.length
  · obtain ⟨st'', h3, h4⟩ := hs st' _ h2
    refine ⟨st'', ?_, by simpa using h4⟩
    simp only [StdIter.nth, h1, hk, decide_true, h3]
    simp
  · refine ⟨st', ?_, ?_⟩
    · simp only [StdIter.nth, h1, hk, decide_false]
      rw [List.getElem?_eq_none (by omega)]
    · rw [List.drop_eq_nil_of_le (by omega)] at h2 ⊢; exact h2

theorem loop_find (p : ι → Bool) (L : List ι) :
    loopOver (fun (_ : Unit) i => if p i then Flow.leave i else Flow.goOn ()) L () =
      (match L.find? p with | some i => .leave i | none => .goOn (), L.drop (L.findIdx p + 1)) := by
  induction L with
  | nil => rfl
  | cons i L ih =>
    by_cases h : p i = true
    · simp [loopOver, h, List.findIdx_cons]
    · simp only [loopOver, h, List.find?_cons, List.findIdx_cons]
      simpa [h] using ih

theorem loop_position (p : ι → Bool) (L : List ι) : ∀ k,
    loopOver (fun (k : Nat) i => if p i then Flow.leave k else Flow.goOn (k + 1)) L k =
      (match L.findIdx? p with | some j => .leave (k + j) | none => .goOn (k + L.length), L.drop (L.findIdx p + 1)) := by
  induction L with
  | nil => intro k; rfl
  | cons i L ih =>
    intro k
    by_cases h : p i = true
    · simp [loopOver, h, List.findIdx?_cons, List.findIdx_cons]
    · simp only [loopOver, h]
      simp only [Bool.false_eq_true, if_false, ih]
      simp only [List.findIdx?_cons, List.findIdx_cons, h]
      cases L.findIdx? p <;> simp <;> omega

theorem foldl_count (L : List ι) : ∀ c, L.foldl (fun c _ => c + 1) c = c + L.length := by
  induction L with
  | nil => intro c; rfl
  | cons i L ih => intro c; simp only [List.foldl_cons, ih, List.length_cons]; omega

theorem foldl_last (L : List ι) : ∀ o, L.foldl (fun _ i => some i) o = L.getLast?.or o := by
  induction L with
  | nil => intro o; rfl
  | cons i L ih => intro o; rw [List.foldl_cons, ih, List.getLast?_cons]; cases L.getLast? <;> rfl

theorem foldl_collect (L : List ι) : ∀ l, L.foldl (fun l i => l ++ [i]) l = l ++ L := by
  induction L with
  | nil => intro l; simp
  | cons i L ih => intro l; simp [ih]

theorem loopsOver (hs : Steps next Has) {st : σ} {L : List ι} (h : Has st L) : LoopsOver next Has st L where
  loop _ _ body a n hn := tryFold_spec hs body L n st a hn h
  fold _ g a n hn := fold_spec hs g L n st a hn h
  count n hn := by rw [StdIter.count, fold_spec hs _ L n st _ hn h, foldl_count, Nat.zero_add]
  last n hn := by rw [StdIter.last, fold_spec hs _ L n st _ hn h, foldl_last]; simp
  collect n hn := by rw [StdIter.collect, fold_spec hs _ L n st _ hn h, foldl_collect]; simp
  nth k := nth_spec hs k L st h
  find p n hn := by
    obtain ⟨st', h1, h2⟩ := tryFold_spec hs (fun (_ : Unit) i => if p i then Flow.leave i else Flow.goOn ()) L n st () hn h
    rw [loop_find] at h1 h2
    refine ⟨st', ?_, h2⟩
    simp only [StdIter.find, h1]
    cases L.find? p <;> rfl
  position p n hn := by
    obtain ⟨st', h1, h2⟩ := tryFold_spec hs (fun (k : Nat) i => if p i then Flow.leave k else Flow.goOn (k + 1)) L n st 0 hn h
    rw [loop_position] at h1 h2
    refine ⟨st', ?_, h2⟩
    simp only [StdIter.position, h1]
    cases L.findIdx? p <;> simp

theorem LoopsOver.mono {Has' : σ → List ι → Prop} (hh : ∀ st L, Has st L → Has' st L) {st : σ} {L : List ι}
    (h : LoopsOver next Has st L) : LoopsOver next Has' st L where
  loop α β body a n hn := (h.loop α β body a n hn).imp fun _ h => ⟨h.1, hh _ _ h.2⟩
  fold := h.fold
  count := h.count
  last := h.last
  collect := h.collect
  nth k := (h.nth k).imp fun _ h => ⟨h.1, hh _ _ h.2⟩
  find p n hn := (h.find p n hn).imp fun _ h => ⟨h.1, hh _ _ h.2⟩
  position p n hn := (h.position p n hn).imp fun _ h => ⟨h.1, hh _ _ h.2⟩

/-! ### Iterators of a forest -/

variable {T : Type} {um : Nat} {f : Forest T} {s : Shape}

/-- `Plays` with the kind and the items named. -/
def Left (um : Nat) (f : Forest T) (s : Shape) (k : IterKind) (it : Iter) (L : List Item) : Prop :=
  ∃ d, Plays um f s it d ∧ d.kind = k ∧ d.rest = L

theorem left_steps (hm : Models f s) (k : IterKind) : Steps (Iter.next um f) (Left um f s k) := by
  rintro it L ⟨d, h, rfl, rfl⟩
  obtain ⟨it', h1, h2⟩ := h.next hm
  exact ⟨it', h1, _, h2, rfl, rfl⟩

theorem left_back {k : IterKind} (hk : k.double = true) {it : Iter} {L : List Item} (h : Left um f s k it L) :
    ∃ it', Iter.nextBack' f it = .ok (L.getLast?, it') ∧ Left um f s k it' L.dropLast := by
  obtain ⟨d, h, rfl, rfl⟩ := h
  rcases h.back with ⟨_, it', h1, h2⟩ | ⟨h1, _⟩
  · exact ⟨it', by rw [Iter.nextBack', h1]; rfl, _, h2, rfl, rfl⟩
  · rw [hk] at h1; cases h1

theorem left_steps_back {k : IterKind} (hk : k.double = true) :
    Steps (Iter.nextBack' f) (fun it L => Left um f s k it L.reverse) := by
  intro it L h
  obtain ⟨it', h1, h2⟩ := left_back hk h
  exact ⟨it', by rw [h1]; simp, by simpa using h2⟩

theorem steps_pull (hs : Steps next Has) : ∀ k st L, Has st L → pull next k st = .ok (pulls L k) := by
  intro k st L h
  exact pull_inv (Inv := Has) (fun st L h => hs st L h) k st L h

theorem left_has (hm : Models f s) {k : IterKind} {it : Iter} {L : List Item} (h : Left um f s k it L) :
    HasLeft um f k.double it L := by
  refine ⟨fun n => steps_pull (left_steps hm k) n it L h, fun hk ds => ?_⟩
  induction ds generalizing it L with
  | nil => rfl
  | cons d ds ih =>
    cases d with
    | front =>
      obtain ⟨it', h1, h2⟩ := left_steps hm k it L h
      simp only [drive, h1, ih h2, dequeRun]
    | back =>
      obtain ⟨it', h1, h2⟩ := left_back hk h
      simp only [drive, h1, ih h2, dequeRun]

theorem plays_loops (hm : Models f s) {it : Iter} {d : Deck} (h : Plays um f s it d) :
    LoopsOver (Iter.next um f) (HasLeft um f d.kind.double) it d.rest :=
  (loopsOver (left_steps hm d.kind) ⟨d, h, rfl, rfl⟩).mono fun _ _ h => left_has hm h

theorem plays_loops_back (hm : Models f s) {it : Iter} {d : Deck} (h : Plays um f s it d) (hk : d.kind.double = true) :
    LoopsOver (Iter.nextBack' f) (fun it L => HasLeft um f true it L.reverse) it d.rest.reverse :=
  (loopsOver (left_steps_back (um := um) (s := s) hk) (by exact ⟨d, h, rfl, by simp⟩)).mono
    fun _ _ h => by have := left_has hm h; rwa [hk] at this

end Treena
