import Verif.Spec.Forest
/-! Lemmas about `before`, `after` and duplicate-free lists. -/
namespace Treena

@[simp] theorem before_nil (x : Nat) : before [] x = [] := rfl
@[simp] theorem after_nil (x : Nat) : after [] x = [] := rfl

theorem before_cons (a x : Nat) (l : List Nat) :
    before (a :: l) x = if a = x then [] else a :: before l x := by
  unfold before; by_cases h : a = x <;> simp [h]

theorem after_cons (a x : Nat) (l : List Nat) :
    after (a :: l) x = if a = x then l else after l x := by
  unfold after; by_cases h : a = x <;> simp [h]

@[simp] theorem before_cons_self (x : Nat) (l : List Nat) : before (x :: l) x = [] := by
  simp [before_cons]
@[simp] theorem after_cons_self (x : Nat) (l : List Nat) : after (x :: l) x = l := by
  simp [after_cons]

theorem before_of_not_mem {x : Nat} {l : List Nat} (h : x ∉ l) : before l x = l := by
  induction l with
  | nil => rfl
  | cons a l ih => simp at h; rw [before_cons, if_neg (by omega), ih h.2]

theorem after_of_not_mem {x : Nat} {l : List Nat} (h : x ∉ l) : after l x = [] := by
  induction l with
  | nil => rfl
  | cons a l ih => simp at h; rw [after_cons, if_neg (by omega), ih h.2]

theorem before_append_left {x : Nat} {l : List Nat} (m : List Nat) (h : x ∈ l) :
    before (l ++ m) x = before l x := by
  induction l with
  | nil => simp at h
  | cons a l ih =>
    rw [List.cons_append, before_cons, before_cons]
    by_cases e : a = x
    · simp [e]
    · simp only [e, if_false]; rw [ih]; simp at h; rcases h with h | h
      · exact absurd h.symm e
      · exact h

theorem before_append_right {x : Nat} {l : List Nat} (m : List Nat) (h : x ∉ l) :
    before (l ++ m) x = l ++ before m x := by
  induction l with
  | nil => rfl
  | cons a l ih =>
    simp at h
    rw [List.cons_append, before_cons, if_neg (by omega), ih h.2]; rfl

theorem after_append_left {x : Nat} {l : List Nat} (m : List Nat) (h : x ∈ l) :
    after (l ++ m) x = after l x ++ m := by
  induction l with
  | nil => simp at h
  | cons a l ih =>
    rw [List.cons_append, after_cons, after_cons]
    by_cases e : a = x
    · simp [e]
    · simp only [e, if_false]; rw [ih]; simp at h; rcases h with h | h
      · exact absurd h.symm e
      · exact h

theorem after_append_right {x : Nat} {l : List Nat} (m : List Nat) (h : x ∉ l) :
    after (l ++ m) x = after m x := by
  induction l with
  | nil => rfl
  | cons a l ih =>
    simp at h
    rw [List.cons_append, after_cons, if_neg (by omega), ih h.2]

/-- Decomposition of a list at a member. -/
theorem before_after {x : Nat} {l : List Nat} (h : x ∈ l) : before l x ++ x :: after l x = l := by
  induction l with
  | nil => simp at h
  | cons a l ih =>
    rw [before_cons, after_cons]
    by_cases e : a = x
    · simp [e]
    · simp only [e, if_false]
      simp at h
      rcases h with h | h
      · exact absurd h.symm e
      · simp [ih h]

theorem not_mem_before (x : Nat) (l : List Nat) : x ∉ before l x := by
  induction l with
  | nil => simp
  | cons a l ih =>
    rw [before_cons]; by_cases e : a = x
    · simp [e]
    · simp [e, ih]; omega

theorem not_mem_after {x : Nat} {l : List Nat} (h : l.Nodup) : x ∉ after l x := by
  induction l with
  | nil => simp
  | cons a l ih =>
    rw [after_cons]; simp at h
    by_cases e : a = x
    · simp [e]; exact e ▸ h.1
    · simp [e, ih h.2]

theorem before_sub {x y : Nat} {l : List Nat} (h : y ∈ before l x) : y ∈ l := by
  exact (List.takeWhile_sublist _).subset h

theorem after_sub {x y : Nat} {l : List Nat} (h : y ∈ after l x) : y ∈ l :=
  ((List.tail_sublist _).trans (List.dropWhile_sublist _)).subset h

theorem before_nodup {x : Nat} {l : List Nat} (h : l.Nodup) : (before l x).Nodup :=
  h.sublist (List.takeWhile_sublist _)

theorem after_nodup {x : Nat} {l : List Nat} (h : l.Nodup) : (after l x).Nodup :=
  h.sublist ((List.tail_sublist _).trans (List.dropWhile_sublist _))

/-- Uniqueness of the decomposition. -/
theorem before_eq {x : Nat} {a b : List Nat} (h : x ∉ a) : before (a ++ x :: b) x = a := by
  rw [before_append_right _ h]; simp

theorem after_eq {x : Nat} {a b : List Nat} (h : x ∉ a) : after (a ++ x :: b) x = b := by
  rw [after_append_right _ h]; simp

theorem erase_mid {x : Nat} {a b : List Nat} (h : x ∉ a) : (a ++ x :: b).erase x = a ++ b := by
  rw [List.erase_append_right _ h]; simp

theorem erase_eq_before_after {x : Nat} {l : List Nat} (h : x ∈ l) :
    l.erase x = before l x ++ after l x := by
  conv => lhs; rw [← before_after h]
  exact erase_mid (not_mem_before x l)

/-- A duplicate-free list of numbers below `n` has at most `n` elements. -/
theorem nodup_length_le {n : Nat} {l : List Nat} (hn : l.Nodup) (h : ∀ x ∈ l, x < n) :
    l.length ≤ n := by
  induction n generalizing l with
  | zero =>
    cases l with
    | nil => simp
    | cons a l => exact absurd (h a (by simp)) (by omega)
  | succ n ih =>
    have h1 : (l.erase n).length ≤ n := by
      apply ih (hn.erase n)
      intro x hx
      rw [hn.mem_erase_iff] at hx
      have := h x hx.2
      have := hx.1
      omega
    rw [List.length_erase] at h1
    split at h1 <;> omega

end Treena
