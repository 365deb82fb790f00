import Verif.Proof.Fuel
import Mathlib.Data.Fintype.Prod
/-!
# Enough fuel for a loop with a counter

The loop that prints a tree walks over the events of a traversal and keeps a stack of open items; it ends when an item is
closed and the stack is empty.  A walk over `M` events with such a counter either ends within `M (M + 1) + 2` rounds or never.
-/
set_option autoImplicit false

namespace Treena
namespace Fuel
variable {τ : Type}

/-- A walk with a counter; the loop ends when the counter would fall below zero. -/
def cstep (step : τ → Option τ) (up : τ → Bool) (s : τ × Nat) : Option (τ × Nat) :=
  match step s.1 with
  | none => none
  | some t => if up s.1 then some (t, s.2 + 1) else if s.2 = 0 then none else some (t, s.2 - 1)

variable {step : τ → Option τ} {up : τ → Bool}

theorem cstep_fst {s s' : τ × Nat} (h : cstep step up s = some s') : step s.1 = some s'.1 := by
  unfold cstep at h
  split at h
  · cases h
  · rename_i e
    split at h
    · cases h; exact e
    · split at h <;> cases h
      exact e

theorem cstep_snd {s s' : τ × Nat} (h : cstep step up s = some s') : s'.2 ≤ s.2 + 1 := by
  unfold cstep at h
  split at h
  · cases h
  · split at h
    · cases h; exact Nat.le_refl _
    · split at h <;> cases h
      show s.2 - 1 ≤ s.2 + 1
      omega

theorem goes_more : ∀ (n : Nat) {t : τ} {k k' : Nat}, k ≤ k' → Goes (cstep step up) n (t, k) → Goes (cstep step up) n (t, k')
  | 0, _, _, _, _, _ => trivial
  | n + 1, t, k, k', hk, ⟨s', h, hg⟩ => by
    unfold cstep at h
    split at h
    · cases h
    · rename_i t' e
      split at h
      · rename_i hu
        cases h
        exact ⟨(t', k' + 1), by simp [cstep, e, hu], goes_more n (by simpa using hk) hg⟩
      · rename_i hu
        split at h <;> cases h
        rename_i h0
        dsimp only at h0
        refine ⟨(t', k' - 1), ?_, goes_more n (show k - 1 ≤ k' - 1 by omega) hg⟩
        have : k' ≠ 0 := by omega
        simp [cstep, e, hu, this]

theorem goes_le {σ : Type} {step : σ → Option σ} : ∀ {n m : Nat} {s : σ}, m ≤ n → Goes step n s → Goes step m s
  | _, 0, _, _, _ => trivial
  | 0, m + 1, _, h, _ => by omega
  | n + 1, m + 1, _, h, ⟨s', e, hg⟩ => ⟨s', e, goes_le (by omega) hg⟩

theorem goes_add {σ : Type} {step : σ → Option σ} : ∀ {d n : Nat} {s : σ}, Goes step d s → Goes step n ((adv step)^[d] s) → Goes step (d + n) s
  | 0, n, s, _, h => by simpa using h
  | d + 1, n, s, ⟨s', e, hg⟩, h => by
    rw [show d + 1 + n = (d + n) + 1 by omega]
    refine ⟨s', e, goes_add hg ?_⟩
    rw [Function.iterate_succ_apply] at h
    have : adv step s = s' := by simp [adv, e]
    rwa [this] at h

/-- If the walk comes back to a place with a counter that is not smaller, the loop never ends. -/
theorem goes_again {s : τ × Nat} {i d : Nat} (hd : 0 < d) (hg : Goes (cstep step up) (i + d) s)
    (h1 : ((adv (cstep step up))^[i] s).1 = ((adv (cstep step up))^[i + d] s).1)
    (h2 : ((adv (cstep step up))^[i] s).2 ≤ ((adv (cstep step up))^[i + d] s).2) (k : Nat) : Goes (cstep step up) k s := by
  have hgi : Goes (cstep step up) i s := goes_le (by omega) hg
  have hgd : Goes (cstep step up) d ((adv (cstep step up))^[i] s) := by
    rw [goes_iff] at hg ⊢
    intro j hj
    rw [← Function.iterate_add_apply, ← Function.iterate_add_apply, show j + i = i + j by omega, show j + 1 + i = i + j + 1 by omega]
    exact hg (i + j) (by omega)
  have all : ∀ k, Goes (cstep step up) k ((adv (cstep step up))^[i] s) := by
    intro k
    induction k using Nat.strong_induction_on with
    | _ k ih =>
      by_cases hk : k ≤ d
      · exact goes_le hk hgd
      · have h3 := ih (k - d) (by omega)
        have h4 : Goes (cstep step up) (k - d) ((adv (cstep step up))^[i + d] s) := by
          have := goes_more (k - d) h2 (t := ((adv (cstep step up))^[i] s).1) h3
          rwa [h1] at this
        have := goes_add hgd (n := k - d) (by
          rw [← Function.iterate_add_apply, show d + i = i + d by omega]; exact h4)
        rwa [show d + (k - d) = k by omega] at this
  exact goes_le (by omega) (goes_add hgi (all k) : Goes (cstep step up) (i + k) s)

/-- A walk over at most `M` places with a counter that goes on for `M (M + 1) + 2` rounds never ends. -/
theorem counter_forever (I : τ → Prop) (hI : ∀ s s', I s → step s = some s' → I s')
    {M : Nat} (enc : τ → Nat) (hlt : ∀ s s' s'', I s → step s = some s' → step s' = some s'' → enc s < M)
    (hinj : ∀ s s' s'' t t' t'', I s → I t → step s = some s' → step s' = some s'' → step t = some t' →
      step t' = some t'' → enc s = enc t → s = t)
    {t : τ} (ht : I t) (hg : Goes (cstep step up) (M * (M + 1) + 2) (t, 0)) (k : Nat) : Goes (cstep step up) k (t, 0) := by
  have h := (goes_iff _ _ _).1 hg
  generalize hx : (fun i => (adv (cstep step up))^[i] (t, 0)) = x
  have hxi : ∀ i, (adv (cstep step up))^[i] (t, 0) = x i := fun i => by rw [← hx]
  simp only [hxi] at h
  have hst : ∀ i, i < M * (M + 1) + 2 → step (x i).1 = some (x (i + 1)).1 := fun i hi => cstep_fst (h i hi)
  have hIx : ∀ i, i ≤ M * (M + 1) + 2 → I (x i).1 := by
    intro i
    induction i with
    | zero => intro _; rw [← hxi]; exact ht
    | succ i ih => intro hi; exact hI _ _ (ih (by omega)) (hst i (by omega))
  have hc : ∀ i, i ≤ M * (M + 1) + 2 → (x i).2 ≤ i := by
    intro i
    induction i with
    | zero => intro _; rw [← hxi]; exact Nat.le_refl _
    | succ i ih =>
      intro hi
      have h1 := cstep_snd (h i (by omega))
      have h2 := ih (by omega)
      omega
  have hM : M ≤ M * (M + 1) := Nat.le_mul_of_pos_right M (by omega)
  have henc : ∀ i, i ≤ M * (M + 1) → enc (x i).1 < M := fun i hi => hlt _ _ _ (hIx i (by omega)) (hst i (by omega)) (hst (i + 1) (by omega))
  have hsame : ∀ i j, i ≤ M * (M + 1) → j ≤ M * (M + 1) → enc (x i).1 = enc (x j).1 → (x i).1 = (x j).1 := fun i j hi hj e =>
    hinj _ _ _ _ _ _ (hIx i (by omega)) (hIx j (by omega)) (hst i (by omega)) (hst (i + 1) (by omega)) (hst j (by omega)) (hst (j + 1) (by omega)) e
  -- two positions with the same place, the counter of the second not smaller
  have pair : ∀ i j, i < j → j ≤ M * (M + 1) → (x i).1 = (x j).1 → (x i).2 ≤ (x j).2 → Goes (cstep step up) k (t, 0) := by
    intro i j hij hj e1 e2
    obtain ⟨d, rfl⟩ : ∃ d, j = i + d := ⟨j - i, by omega⟩
    refine goes_again (i := i) (d := d) (by omega) (goes_le (by omega) hg) ?_ ?_ k
    · rw [hxi, hxi]; exact e1
    · rw [hxi, hxi]; exact e2
  -- every place is met among the first `M + 1` positions
  have early : ∀ i, i ≤ M * (M + 1) → ∃ j, j ≤ M ∧ j ≤ i ∧ (x j).1 = (x i).1 := by
    obtain ⟨a, b, hab, he⟩ := Fintype.exists_ne_map_eq_of_card_lt
      (fun i : Fin (M + 1) => (⟨enc (x i.1).1, henc i.1 (by omega)⟩ : Fin M)) (by simp)
    simp only [Fin.mk.injEq] at he
    have heq := hsame a.1 b.1 (by omega) (by omega) he
    have key : ∃ p q, p < q ∧ q ≤ M ∧ (x p).1 = (x q).1 := by
      rcases Nat.lt_or_gt_of_ne (fun e => hab (Fin.ext e) : a.1 ≠ b.1) with hl | hl
      · exact ⟨a.1, b.1, hl, by omega, heq⟩
      · exact ⟨b.1, a.1, hl, by omega, heq.symm⟩
    obtain ⟨p, q, hpq, hq, e⟩ := key
    have shift : ∀ m, q + m ≤ M * (M + 1) → (x (p + m)).1 = (x (q + m)).1 := by
      intro m
      induction m with
      | zero => intro _; exact e
      | succ m ih =>
        intro hm
        have h1 := hst (p + m) (by omega)
        have h2 := hst (q + m) (by omega)
        rw [ih (by omega), h2] at h1
        exact (Option.some.inj h1).symm
    intro i
    induction i using Nat.strong_induction_on with
    | _ i ih =>
      intro hi
      by_cases hiM : i ≤ M
      · exact ⟨i, hiM, Nat.le_refl _, rfl⟩
      · obtain ⟨j, h1, h2, h3⟩ := ih (i - (q - p)) (by omega) (by omega)
        have := shift (i - q) (by omega)
        rw [show q + (i - q) = i by omega, show p + (i - q) = i - (q - p) by omega] at this
        exact ⟨j, h1, by omega, h3.trans this⟩
  by_cases hbig : ∃ i, i ≤ M * (M + 1) ∧ M < (x i).2
  · obtain ⟨i, hi, hb⟩ := hbig
    obtain ⟨j, h1, h2, h3⟩ := early i hi
    have h4 := hc j (by omega)
    have hne : j ≠ i := by rintro rfl; omega
    exact pair j i (by omega) hi h3 (by omega)
  · have hsmall : ∀ i, i ≤ M * (M + 1) → (x i).2 < M + 1 := fun i hi => by
      by_contra hcon
      exact hbig ⟨i, hi, by omega⟩
    obtain ⟨a, b, hab, he⟩ := Fintype.exists_ne_map_eq_of_card_lt
      (fun i : Fin (M * (M + 1) + 1) => ((⟨enc (x i.1).1, henc i.1 (by omega)⟩, ⟨(x i.1).2, hsmall i.1 (by omega)⟩) : Fin M × Fin (M + 1)))
      (by simp)
    simp only [Prod.mk.injEq, Fin.mk.injEq] at he
    have heq := hsame a.1 b.1 (by omega) (by omega) he.1
    rcases Nat.lt_or_gt_of_ne (fun e => hab (Fin.ext e) : a.1 ≠ b.1) with hl | hl
    · exact pair a.1 b.1 hl (by omega) heq (Nat.le_of_eq he.2)
    · exact pair b.1 a.1 hl (by omega) heq.symm (Nat.le_of_eq he.2.symm)

end Fuel
end Treena
