import Verif.Model.Forest
import Mathlib.Logic.Function.Iterate
import Mathlib.Data.Fintype.Pigeonhole
/-!
# Enough fuel

The modelled `while` loops have fuel.  Here it is shown that the fuel given to them is enough *in every state, also in
corrupted ones*: with more fuel the loop has the same result.  Hence the result `diverge` means that the loop of the
program never ends. -/
set_option autoImplicit false

namespace Treena
namespace Fuel
variable {σ α : Type}

/-- `k` rounds of a loop all continue. -/
def Goes (step : σ → Option σ) : Nat → σ → Prop
  | 0, _ => True
  | k + 1, s => ∃ s', step s = some s' ∧ Goes step k s'

/-- The state after a round. -/
def adv (step : σ → Option σ) (s : σ) : σ := (step s).getD s

theorem goes_iff (step : σ → Option σ) : ∀ (k : Nat) (s : σ),
    Goes step k s ↔ ∀ i, i < k → step ((adv step)^[i] s) = some ((adv step)^[i + 1] s)
  | 0, _ => by simp [Goes]
  | k + 1, s => by
    constructor
    · rintro ⟨s', h, hg⟩ i hi
      have ha : adv step s = s' := by simp [adv, h]
      cases i with
      | zero => simpa [ha] using h
      | succ i =>
        have := (goes_iff step k s').1 hg i (by omega)
        rw [Function.iterate_succ_apply, Function.iterate_succ_apply, ha]
        exact this
    · intro h
      have h0 := h 0 (by omega)
      refine ⟨adv step s, h0, (goes_iff step k _).2 fun i hi => ?_⟩
      have := h (i + 1) (by omega)
      rwa [Function.iterate_succ_apply, Function.iterate_succ_apply] at this

/-- A deterministic loop over at most `N` states that goes on for `N + 2` rounds never ends.  Only the states in
which the loop continues twice are counted; `I` is an invariant. -/
theorem goes_forever {step : σ → Option σ} (I : σ → Prop) (hI : ∀ s s', I s → step s = some s' → I s')
    {N : Nat} (enc : σ → Nat) (hlt : ∀ s s' s'', I s → step s = some s' → step s' = some s'' → enc s < N)
    (hinj : ∀ s s' s'' t t' t'', I s → I t → step s = some s' → step s' = some s'' → step t = some t' →
      step t' = some t'' → enc s = enc t → s = t)
    {s : σ} (hs : I s) (h : Goes step (N + 2) s) (k : Nat) : Goes step k s := by
  rw [goes_iff] at h
  have hIi : ∀ i, i ≤ N + 1 → I ((adv step)^[i] s) := by
    intro i
    induction i with
    | zero => intro _; exact hs
    | succ i ih => intro hi; exact hI _ _ (ih (by omega)) (h i (by omega))
  obtain ⟨a, b, hab, he⟩ := Fintype.exists_ne_map_eq_of_card_lt
    (fun i : Fin (N + 1) => (⟨enc ((adv step)^[i.1] s), hlt _ _ _ (hIi i.1 (by omega)) (h i.1 (by omega)) (h (i.1 + 1) (by omega))⟩ : Fin N)) (by simp)
  simp only [Fin.mk.injEq] at he
  have heq := hinj _ _ _ _ _ _ (hIi a.1 (by omega)) (hIi b.1 (by omega)) (h a.1 (by omega)) (h (a.1 + 1) (by omega))
    (h b.1 (by omega)) (h (b.1 + 1) (by omega)) he
  -- let `i < j` be the two positions
  have key : ∀ i j : Nat, i < j → j < N + 1 → (adv step)^[i] s = (adv step)^[j] s → ∀ k, Goes step k s := by
    intro i j hij hj e k
    have closed : ∀ k m, m < j → Goes step k ((adv step)^[m] s) := by
      intro k
      induction k with
      | zero => intro _ _; trivial
      | succ k ih =>
        intro m hm
        refine ⟨_, h m (by omega), ?_⟩
        by_cases hm1 : m + 1 < j
        · exact ih _ hm1
        · have : m + 1 = j := by omega
          rw [this, ← e]; exact ih i hij
    exact closed k 0 (by omega)
  rcases Nat.lt_or_gt_of_ne (fun e => hab (Fin.ext e) : a.1 ≠ b.1) with hl | hl
  · exact key _ _ hl b.2 heq k
  · exact key _ _ hl a.2 heq.symm k

/-- A read-only `while` loop: a round fails, ends with a result or continues. -/
structure IsLoop (L : Nat → σ → R α) (body : σ → R (σ ⊕ α)) : Prop where
  zero : ∀ s, L 0 s = .error .diverge ∨ ∃ a, body s = .ok (.inr a) ∧ L 0 s = .ok a
  succ : ∀ k s, L (k + 1) s = match body s with
    | .error e => .error e
    | .ok (.inr a) => .ok a
    | .ok (.inl s') => L k s'

/-- Continuation of a loop. -/
def stepOf (body : σ → R (σ ⊕ α)) (s : σ) : Option σ :=
  match body s with
  | .ok (.inl s') => some s'
  | _ => none

theorem IsLoop.goes {L : Nat → σ → R α} {body : σ → R (σ ⊕ α)} (hL : IsLoop L body) : ∀ (k : Nat) (s : σ),
    Goes (stepOf body) k s ∨ ∀ j, L (k + j) s = L k s
  | 0, _ => .inl trivial
  | k + 1, s => by
    cases hb : body s with
    | error e =>
      right; intro j
      rw [show k + 1 + j = (k + j) + 1 by omega, hL.succ, hL.succ, hb]
    | ok r =>
      cases r with
      | inr a =>
        right; intro j
        rw [show k + 1 + j = (k + j) + 1 by omega, hL.succ, hL.succ, hb]
      | inl s' =>
        rcases hL.goes k s' with h | h
        · exact .inl ⟨s', by simp [stepOf, hb], h⟩
        · right; intro j
          rw [show k + 1 + j = (k + j) + 1 by omega, hL.succ, hL.succ, hb]
          exact h j

theorem IsLoop.diverge {L : Nat → σ → R α} {body : σ → R (σ ⊕ α)} (hL : IsLoop L body) : ∀ (k : Nat) (s : σ),
    Goes (stepOf body) (k + 1) s → L k s = .error .diverge
  | 0, s, ⟨s', h, _⟩ => by
    rcases hL.zero s with hz | ⟨a, ha, _⟩
    · exact hz
    · simp [stepOf, ha] at h
  | k + 1, s, ⟨s', h, hg⟩ => by
    rw [hL.succ]
    unfold stepOf at h
    split at h
    · next hb => cases h; rw [hb]; exact hL.diverge k _ hg
    · cases h

theorem stepOf_eq {body : σ → R (σ ⊕ α)} {s s' : σ} : stepOf body s = some s' ↔ body s = .ok (.inl s') := by
  unfold stepOf
  split
  · next hb => rw [hb]; simp
  · next hb => simp only [reduceCtorEq, false_iff]; exact fun h => hb _ h

theorem goes_proj {τ : Type} {step : σ → Option σ} {step' : τ → Option τ} (π : σ → τ)
    (hπ : ∀ s, (step s).map π = step' (π s)) : ∀ (k : Nat) (s : σ), Goes step k s ↔ Goes step' k (π s)
  | 0, _ => Iff.rfl
  | k + 1, s => by
    constructor
    · rintro ⟨s', h, hg⟩
      exact ⟨π s', by rw [← hπ, h]; rfl, (goes_proj π hπ k s').1 hg⟩
    · rintro ⟨t, h, hg⟩
      rw [← hπ] at h
      obtain ⟨s', h1, rfl⟩ := Option.map_eq_some_iff.1 h
      exact ⟨s', h1, (goes_proj π hπ k s').2 hg⟩

/-- With enough fuel, more fuel makes no difference.  Whether the loop continues may depend on a part `π s` of the
state only; this part has at most `N` values. -/
theorem IsLoop.enough {τ : Type} {L : Nat → σ → R α} {body : σ → R (σ ⊕ α)} (hL : IsLoop L body)
    (π : σ → τ) (step' : τ → Option τ) (hπ : ∀ s, (stepOf body s).map π = step' (π s))
    (I : τ → Prop) (hI : ∀ s s', I s → step' s = some s' → I s')
    {N : Nat} (enc : τ → Nat) (hlt : ∀ s s' s'', I s → step' s = some s' → step' s' = some s'' → enc s < N)
    (hinj : ∀ s s' s'' t t' t'', I s → I t → step' s = some s' → step' s' = some s'' → step' t = some t' →
      step' t' = some t'' → enc s = enc t → s = t)
    {F : Nat} (hF : N + 1 < F) {s : σ} (hs : I (π s)) (k : Nat) : L (F + k) s = L F s := by
  rcases hL.goes F s with h | h
  · have h1 : Goes step' (N + 2) (π s) := by
      rw [goes_proj π hπ, goes_iff] at h
      rw [goes_iff]
      exact fun i hi => h i (by omega)
    have hfor := goes_forever I hI enc hlt hinj hs h1
    rw [hL.diverge _ _ ((goes_proj π hπ _ _).2 (hfor _)), hL.diverge _ _ ((goes_proj π hπ _ _).2 (hfor _))]
  · exact h k

end Fuel

open Fuel

/-- The link `lk` of a live node; the loops below follow such links. -/
def follow (h : Hier) (lk : Neighbors → Option Nat) (stop : Nat → Bool) : Option Nat → Option (Option Nat)
  | none => none
  | some n => if stop n then none else (h.neighbors n).map lk

theorem nbr_lt {h : Hier} {n : Nat} {nb : Neighbors} (hn : h.neighbors n = some nb) : n < h.nbrs.length := by
  unfold Hier.neighbors at hn
  by_contra hc
  rw [List.getElem?_eq_none (by omega)] at hn
  simp at hn

theorem follow_lt {h : Hier} {lk : Neighbors → Option Nat} {stop : Nat → Bool} {s s' : Option Nat}
    (hs : follow h lk stop s = some s') : ∃ n, s = some n ∧ n < h.nbrs.length := by
  cases s with
  | none => simp [follow] at hs
  | some n =>
    simp only [follow] at hs
    split at hs
    · cases hs
    · obtain ⟨nb, hn, _⟩ := Option.map_eq_some_iff.1 hs
      exact ⟨n, rfl, nbr_lt hn⟩

/-- `IsLoop.enough` for loops that follow links. -/
theorem Fuel.IsLoop.enough_follow {σ α : Type} {L : Nat → σ → R α} {body : σ → R (σ ⊕ α)} (hL : IsLoop L body)
    {h : Hier} {lk : Neighbors → Option Nat} {stop : Nat → Bool} (π : σ → Option Nat)
    (hπ : ∀ s, (stepOf body s).map π = follow h lk stop (π s)) {F : Nat} (hF : h.nbrs.length + 1 < F) (s : σ) (k : Nat) :
    L (F + k) s = L F s := by
  refine hL.enough π (follow h lk stop) hπ (fun _ => True) (fun _ _ _ _ => trivial) (N := h.nbrs.length)
    (fun o => o.getD 0) ?_ ?_ hF trivial k
  · intro s s' _ _ hs _
    obtain ⟨n, rfl, hn⟩ := follow_lt hs
    exact hn
  · intro s s' _ t t' _ _ _ hs _ ht _ e
    obtain ⟨n, rfl, hn⟩ := follow_lt hs
    obtain ⟨m, rfl, hm⟩ := follow_lt ht
    simpa using e

end Treena
