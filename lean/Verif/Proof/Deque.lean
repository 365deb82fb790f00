import Mathlib.Data.List.Chain
import Verif.Model.Traverse
import Verif.Spec.Iter
/-! Generic facts about the double-ended traversers. -/

namespace Treena
variable {ε : Type}

/-- The pair of ends stored by a double-ended traverser that still has to emit `L`. -/
def ends (L : List ε) : Option (ε × ε) := L.head?.bind fun a => L.getLast?.map fun b => (a, b)

@[simp] theorem ends_nil : ends ([] : List ε) = none := rfl
theorem ends_cons (a : ε) (l : List ε) : ends (a :: l) = some (a, (a :: l).getLast (by simp)) := by
  simp [ends, List.getLast?_eq_some_getLast]
theorem ends_concat (l : List ε) (z : ε) :
    ends (l ++ [z]) = some ((l ++ [z]).head (by simp), z) := by
  unfold ends
  rw [List.head?_eq_some_head (by simp)]; simp

theorem getLast_mem_ne {a : ε} {l : List ε} (h : (a :: l).Nodup) (hl : l ≠ []) :
    a ≠ (a :: l).getLast (by simp) := by
  rw [List.getLast_cons hl]
  intro e
  exact (List.nodup_cons.1 h).1 (e ▸ List.getLast_mem hl)

theorem deNext_ends [DecidableEq ε] {stepF : ε → R (Option ε)} {L : List ε} (hn : L.Nodup)
    (hc : L.IsChain fun u v => stepF u = .ok (some v)) :
    deNext stepF (ends L) = .ok (L.head?, ends L.tail) := by
  match L with
  | [] => rfl
  | [a] => simp [deNext, ends]
  | a :: b :: l =>
    rw [ends_cons]
    have hne := getLast_mem_ne hn (by simp)
    simp only [deNext, if_neg hne]
    have : stepF a = .ok (some b) := by
      simp at hc; exact hc.1
    rw [this, List.tail_cons, ends_cons]
    simp

theorem deNextBack_ends [DecidableEq ε] {stepB : ε → R (Option ε)} {L : List ε} (hn : L.Nodup)
    (hc : L.IsChain fun u v => stepB v = .ok (some u)) :
    deNextBack stepB (ends L) = .ok (L.getLast?, ends L.dropLast) := by
  rcases List.eq_nil_or_concat L with rfl | ⟨l, z, rfl⟩
  · rfl
  rcases List.eq_nil_or_concat l with rfl | ⟨l, y, rfl⟩
  · simp [deNextBack, ends]
  · simp only [List.concat_eq_append] at *
    rw [ends_concat]
    have hne : (l ++ [y] ++ [z]).head (by simp) ≠ z := by
      intro e
      have h1 : (l ++ [y] ++ [z]).head (by simp) ∈ l ++ [y] := by
        rw [List.head_append_of_ne_nil (by simp)]; exact List.head_mem _
      rw [e] at h1
      have := (List.nodup_append.1 hn).2.2 _ h1 z (by simp)
      exact this rfl
    simp only [deNextBack, if_neg hne]
    have : stepB z = .ok (some y) := by
      rw [List.append_assoc, List.isChain_append] at hc
      have := hc.2.1; simp at this; exact this
    rw [this, List.dropLast_concat, ends_concat]
    simp
    cases l <;> simp

theorem isChain_tail {R : ε → ε → Prop} {L : List ε} (h : L.IsChain R) : L.tail.IsChain R := by
  cases L with
  | nil => exact h
  | cons a l => cases l with
    | nil => simp
    | cons b l => simp at h; exact h.2

theorem isChain_dropLast {R : ε → ε → Prop} {L : List ε} (h : L.IsChain R) : L.dropLast.IsChain R := by
  rcases List.eq_nil_or_concat L with rfl | ⟨l, z, rfl⟩
  · exact h
  · simp only [List.concat_eq_append] at *
    rw [List.dropLast_concat]; exact (List.isChain_append.1 h).1

/-- A client of a double-ended iterator whose state is determined by the remaining list. -/
theorem drive_deque {ι σ : Type} {next nextBack : σ → R (Option ι × σ)} {st : List ι → σ}
    {P : List ι → Prop} (hP1 : ∀ L, P L → P L.tail) (hP2 : ∀ L, P L → P L.dropLast)
    (h1 : ∀ L, P L → next (st L) = .ok (L.head?, st L.tail))
    (h2 : ∀ L, P L → nextBack (st L) = .ok (L.getLast?, st L.dropLast)) (ds : List Dir) :
    ∀ L, P L → drive next nextBack (st L) ds = .ok (dequeRun L ds) := by
  induction ds with
  | nil => intro L _; rfl
  | cons d ds ih =>
    intro L hL
    cases d with
    | front => simp only [drive, h1 L hL, ih _ (hP1 L hL), dequeRun]
    | back => simp only [drive, h2 L hL, ih _ (hP2 L hL), dequeRun]

theorem pulls_succ {ι : Type} (L : List ι) (n : Nat) : pulls L (n + 1) = L.head? :: pulls L.tail n := by
  unfold pulls
  rw [List.range_succ_eq_map]
  cases L <;> simp [List.map_map, Function.comp_def]

theorem pull_list {ι σ : Type} {next : σ → R (Option ι × σ)} {st : List ι → σ}
    {P : List ι → Prop} (hP1 : ∀ L, P L → P L.tail)
    (h1 : ∀ L, P L → next (st L) = .ok (L.head?, st L.tail)) (n : Nat) :
    ∀ L, P L → pull next n (st L) = .ok (pulls L n) := by
  induction n with
  | zero => intro L _; rfl
  | succ n ih => intro L hL; simp only [pull, h1 L hL, ih _ (hP1 L hL), pulls_succ]

end Treena
