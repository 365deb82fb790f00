import Verif.Proof.Raw
/-! Sibling links of concatenated lists. -/
namespace Treena

/-- successor in a list -/
def nx (L : List Nat) (y : Nat) : Option Nat := (after L y).head?
/-- predecessor in a list -/
def pv (L : List Nat) (y : Nat) : Option Nat := (before L y).getLast?
/-- cyclic predecessor in a list -/
def pc (L : List Nat) (y : Nat) : Option Nat := (pv L y).or L.getLast?

theorem after_eq_nil_iff {A : List Nat} {y : Nat} (hA : A.Nodup) (hy : y ∈ A) :
    after A y = [] ↔ A.getLast? = some y := by
  have e := before_after hy
  constructor
  · intro h; rw [h] at e; rw [← e]; simp
  · intro h
    rw [← e] at h
    cases hb : after A y with
    | nil => rfl
    | cons b l =>
      exfalso
      rw [hb] at h
      rw [List.getLast?_append, List.getLast?_cons_cons] at h
      have : y ∈ b :: l := by
        have := List.mem_of_getLast? (a := y) (l := b :: l) (by
          cases h' : (b :: l).getLast? with
          | none => simp at h'
          | some z => rw [h'] at h; simpa using h)
        exact this
      exact not_mem_after hA (hb ▸ this)

theorem before_eq_nil_iff {A : List Nat} {y : Nat} (hy : y ∈ A) :
    before A y = [] ↔ A.head? = some y := by
  cases A with
  | nil => simp at hy
  | cons a l => rw [before_cons]; by_cases e : a = y <;> simp [e]

theorem nx_left {A : List Nat} {y : Nat} (M : List Nat) (hA : A.Nodup) (hy : y ∈ A) :
    nx (A ++ M) y = if A.getLast? = some y then M.head? else nx A y := by
  unfold nx
  rw [after_append_left _ hy]
  by_cases h : A.getLast? = some y
  · rw [if_pos h, (after_eq_nil_iff hA hy).2 h]; rfl
  · rw [if_neg h]
    cases e : after A y with
    | nil => exact absurd ((after_eq_nil_iff hA hy).1 e) h
    | cons b l => rfl

theorem nx_right {A : List Nat} {y : Nat} (M : List Nat) (hy : y ∉ A) :
    nx (A ++ M) y = nx M y := by
  unfold nx; rw [after_append_right _ hy]

theorem pv_eq_none_iff {A : List Nat} {y : Nat} (hy : y ∈ A) :
    pv A y = none ↔ A.head? = some y := by
  unfold pv; rw [List.getLast?_eq_none_iff, before_eq_nil_iff hy]

theorem pc_self {A : List Nat} {y : Nat} (hy : y ∈ A) :
    pc A y = if A.head? = some y then A.getLast? else pv A y := by
  unfold pc
  split
  · rename_i h; rw [(pv_eq_none_iff hy).2 h]; simp
  · rename_i h
    cases e : pv A y with
    | none => exact absurd ((pv_eq_none_iff hy).1 e) h
    | some z => simp

theorem pv_left {A : List Nat} {y : Nat} (M : List Nat) (hy : y ∈ A) :
    pv (A ++ M) y = pv A y := by
  unfold pv; rw [before_append_left _ hy]

theorem pv_right {A : List Nat} {y : Nat} (M : List Nat) (hA : y ∉ A) (hM : y ∈ M) :
    pv (A ++ M) y = if M.head? = some y then A.getLast? else pv M y := by
  unfold pv; rw [before_append_right _ hA, List.getLast?_append]
  split
  · rename_i h; rw [(before_eq_nil_iff hM).2 h]; simp
  · rename_i h
    cases e : (before M y).getLast? with
    | none => rw [List.getLast?_eq_none_iff, before_eq_nil_iff hM] at e; exact absurd e h
    | some z => simp

theorem pc_left {A : List Nat} {y : Nat} (M : List Nat) (hy : y ∈ A) :
    pc (A ++ M) y = if A.head? = some y then M.getLast?.or A.getLast? else pv A y := by
  unfold pc; rw [pv_left _ hy, List.getLast?_append]
  split
  · rename_i h; rw [(pv_eq_none_iff hy).2 h]; simp
  · rename_i h
    cases e : pv A y with
    | none => exact absurd ((pv_eq_none_iff hy).1 e) h
    | some z => simp

theorem pc_right {A : List Nat} {y : Nat} (M : List Nat) (hA : y ∉ A) (hM : y ∈ M) :
    pc (A ++ M) y = if M.head? = some y then A.getLast?.or M.getLast? else pv M y := by
  unfold pc; rw [pv_right _ hA hM, List.getLast?_append]
  split
  · cases A.getLast? with
    | none =>
      cases e : M.getLast? with
      | none => rw [List.getLast?_eq_none_iff] at e; simp [e] at hM
      | some z => simp
    | some z => simp
  · rename_i h
    cases e : pv M y with
    | none => exact absurd ((pv_eq_none_iff hM).1 e) h
    | some z => simp

namespace Shape

theorem link_eq (s : Shape) (x : Nat) :
    s.link x = { parent := s.parent x, prevCyc := pc (s.sibs x) x, next := nx (s.sibs x) x,
                 first := s.first x } := rfl

theorem link_child {s : Shape} {x p : Nat} (h : s.parent x = some p) :
    s.link x = { parent := some p, prevCyc := pc (s.kids p) x, next := nx (s.kids p) x,
                 first := (s.kids x).head? } := by
  rw [link_eq]; unfold sibs; simp only [h]; rfl

theorem link_root {s : Shape} {x : Nat} (h : s.parent x = none) :
    s.link x = { parent := none, prevCyc := some x, next := none,
                 first := (s.kids x).head? } := by
  rw [link_eq]; unfold sibs; simp only [h]; simp [pc, pv, nx, first]

theorem sibs_child {s : Shape} {x p : Nat} (h : s.parent x = some p) : s.sibs x = s.kids p := by
  unfold sibs; simp only [h]

theorem sibs_root {s : Shape} {x : Nat} (h : s.parent x = none) : s.sibs x = [x] := by
  unfold sibs; simp only [h]

end Shape
end Treena
