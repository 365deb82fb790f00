import Verif.Spec.Session
import Verif.Proof.Build
import Verif.Proof.World
/-!
# Whole programs against the naive implementation
-/
set_option autoImplicit false

namespace Treena
variable {T : Type} {cap um : Nat}

/-- A forest with its iterators, and the naive counterparts. -/
def Pair (cap um : Nat) (v : Forest T × List Iter) (w : Plain T × List Deck) : Prop :=
  ∃ s, Plain.Abs w.1 v.1 s ∧ PoolRel um v.1 s v.2 w.2 ∧ v.1.issued ≤ cap ∧ ∀ it ∈ v.2, Sure um v.1 it

theorem Pair.bare {f : Forest T} {r : Plain T} {s : Shape} (h : Plain.Abs r f s) (hi : f.issued ≤ cap) :
    Pair cap um (f, []) (r, []) := ⟨s, h, .nil, hi, fun _ h => by cases h⟩

theorem pair_exec (b : Build) (hcap : cap ≤ um) {v : Forest T × List Iter} {w : Plain T × List Deck} (h : Pair cap um v w)
    (c : PoolReq T) {y : (Plain T × List Deck) × PoolAns T} (he : Plain.poolExec cap um w c = some y) :
    (b.poolExec cap um v c).2 = y.2 ∧ Pair cap um (b.poolExec cap um v c).1 y.1 := by
  obtain ⟨f, p⟩ := v
  obtain ⟨r, q⟩ := w
  obtain ⟨s, h, hp, hi, hs⟩ := h
  obtain ⟨h1, s', h2, h2'⟩ := pool_exec h hp cap c he
  obtain ⟨e, hs'⟩ := build_poolExec b cap h.models (Nat.le_trans hi hcap) hs c
  refine ⟨by rw [e]; exact h1, s', by rw [e]; exact h2, by rw [e]; exact h2', ?_, ?_⟩
  · rw [e]; exact pool_issued (models_coherent h.models) hi p c
  · rw [e]
    rcases pool_iters cap um f p c with e' | e'
    · rw [e']; exact hs' e'
    · rw [e']; intro it hit; cases hit

/-- The forests correspond one by one. -/
def Realm (cap um : Nat) (v : List (Forest T × List Iter)) (w : List (Plain T × List Deck)) : Prop :=
  List.Forall₂ (Pair cap um) v w

theorem Realm.get {v : List (Forest T × List Iter)} {w : List (Plain T × List Deck)} (h : Realm cap um v w) (i : Nat) :
    (v[i]? = none ∧ w[i]? = none) ∨ ∃ x y, v[i]? = some x ∧ w[i]? = some y ∧ Pair cap um x y := by
  induction h generalizing i with
  | nil => left; simp
  | cons h1 h2 ih =>
    cases i with
    | zero => exact .inr ⟨_, _, rfl, rfl, h1⟩
    | succ i => simpa using ih i

theorem Realm.set {v : List (Forest T × List Iter)} {w : List (Plain T × List Deck)} (h : Realm cap um v w) (i : Nat)
    {x : Forest T × List Iter} {y : Plain T × List Deck} (ha : Pair cap um x y) : Realm cap um (v.set i x) (w.set i y) := by
  unfold Realm at *
  induction h generalizing i with
  | nil => exact .nil
  | cons h1 h2 ih =>
    cases i with
    | zero => exact .cons ha h2
    | succ i => exact .cons h1 (ih i)

theorem Realm.push {v : List (Forest T × List Iter)} {w : List (Plain T × List Deck)} (h : Realm cap um v w)
    {x : Forest T × List Iter} {y : Plain T × List Deck} (ha : Pair cap um x y) : Realm cap um (v ++ [x]) (w ++ [y]) := by
  unfold Realm at *
  induction h with
  | nil => exact .cons ha .nil
  | cons h1 h2 ih => exact .cons h1 ih

theorem realm_deed (b : Build) (hcap : cap ≤ um) {v : List (Forest T × List Iter)} {w : List (Plain T × List Deck)}
    (h : Realm cap um v w) (a : Deed T) {y : List (Plain T × List Deck) × PoolAns T} (hy : Plain.deed cap um w a = some y) :
    (b.deed cap um v a).2 = y.2 ∧ Realm cap um (b.deed cap um v a).1 y.1 := by
  have hlen : v.length = w.length := h.length_eq
  cases a with
  | new =>
    cases hy
    exact ⟨by rw [← hlen]; rfl, h.push (Pair.bare plain_new (Nat.zero_le _))⟩
  | on i c =>
    simp only [Plain.deed, Build.deed] at hy ⊢
    rcases h.get i with ⟨e1, e2⟩ | ⟨p, q, e1, e2, ha⟩
    · rw [e2] at hy; rw [e1]
      cases hy; exact ⟨rfl, h⟩
    · rw [e2] at hy; rw [e1]
      obtain ⟨z, hz, rfl⟩ := Option.map_eq_some_iff.1 hy
      obtain ⟨h1, h2⟩ := pair_exec b hcap ha c hz
      exact ⟨h1, h.set i h2⟩
  | foreign dst src x cl limit =>
    simp only [Plain.deed, Build.deed] at hy ⊢
    rcases h.get dst with ⟨e1, e2⟩ | ⟨⟨f, p⟩, ⟨r, q⟩, e1, e2, ha⟩
    · rw [e2] at hy; rw [e1]
      cases hy; exact ⟨rfl, h⟩
    rcases h.get src with ⟨e3, e4⟩ | ⟨⟨g, p'⟩, ⟨r', q'⟩, e3, e4, hb⟩
    · rw [e2, e4] at hy; rw [e1, e3]
      cases hy; exact ⟨rfl, h⟩
    rw [e2, e4] at hy; rw [e1, e3]
    simp only at hy ⊢
    obtain ⟨s, ha, _, hi, _⟩ := ha
    obtain ⟨s', hb, _⟩ := hb
    simp only at ha hb hi
    rw [hb.models.isAlive]
    rcases hb.find x with ⟨hx, e⟩ | ⟨hx, u, e, hu, ht⟩
    · rw [e] at hy
      cases hy
      rw [hx, if_neg (by simp)]
      exact ⟨rfl, h⟩
    · rw [e] at hy
      simp only at hy
      rw [hx]
      split at hy
      · rename_i hne
        cases hy
        rw [if_pos ⟨hne, rfl⟩]
        have hr : (Wood.sk u).root = x := by rw [Wood.root_sk, hu]
        have hco := cloneForeign_spec (cap := cap) (cl := cl) (hook := fun l a b => Req.record limit l (a, b)) ha.models
          hb.models ht (by rw [hr]; exact hx) ([] : List (Nat × Nat))
        rw [hr] at hco
        obtain ⟨h1, s'', h2⟩ := ha.copyTree cap (hb.stored.find e) cl limit hco
        refine ⟨by rw [h1], h.set dst (Pair.bare h2 ?_)⟩
        rw [ansResS_state]
        exact (step_fits f (.cloneForeign _ cl (fun l a b => Req.record limit l (a, b)) [] g x) (models_coherent ha.models)).2 hi
      · rename_i hne
        cases hy
        rw [if_neg (by simpa using hne)]
        exact ⟨rfl, h⟩
  | dup i cl =>
    simp only [Plain.deed, Build.deed] at hy ⊢
    rcases h.get i with ⟨e1, e2⟩ | ⟨⟨f, p⟩, ⟨r, q⟩, e1, e2, ha⟩
    · rw [e2] at hy; rw [e1]
      cases hy; exact ⟨rfl, h⟩
    · rw [e2] at hy; rw [e1]
      simp only at hy ⊢
      obtain ⟨s, ha, _, hi, _⟩ := ha
      simp only at ha hi
      rcases ha.dupBy cl with ⟨h1, g, h2, h3⟩ | ⟨h1, h2⟩
      · rw [h1] at hy
        simp only [if_true] at hy
        cases hy
        rw [h2]
        refine ⟨by simp [hlen], h.push (Pair.bare h3 ?_)⟩
        unfold Forest.tryClone at h2
        split at h2
        · cases h2
          simpa [Forest.issued] using hi
        · cases h2
      · rw [h1] at hy
        simp only [Bool.false_eq_true, if_false] at hy
        cases hy
        rw [h2]
        exact ⟨rfl, h⟩

theorem session_grow (b : Build) (cap um : Nat) (program : List (PoolAns T) → Deed T) :
    ∀ (k : Nat) (g : List (Forest T × List Iter)) (l : List (PoolAns T)),
    ∃ rest, b.session cap um program k g l = l ++ rest ∧ rest.length = k := by
  intro k
  induction k with
  | zero => intro g l; exact ⟨[], by simp [Build.session], rfl⟩
  | succ k ih =>
    intro g l
    obtain ⟨rest, h1, h2⟩ := ih (b.deed cap um g (program l)).1 (l ++ [(b.deed cap um g (program l)).2])
    exact ⟨(b.deed cap um g (program l)).2 :: rest, by simp [Build.session, h1], by simp [h2]⟩

theorem session_run (b : Build) (hcap : cap ≤ um) (program : List (PoolAns T) → Deed T) :
    ∀ (n : Nat) {v : List (Forest T × List Iter)} {w : List (Plain T × List Deck)} (seen : List (PoolAns T)),
    Realm cap um v w →
    ∃ rest, b.session cap um program n v seen = Plain.session cap um program n w seen ++ rest ∧
      rest.length + (Plain.session cap um program n w seen).length = seen.length + n
  | 0, v, w, seen, h => ⟨[], by simp [Build.session, Plain.session], by simp [Plain.session]⟩
  | n + 1, v, w, seen, h => by
    cases he : Plain.deed cap um w (program seen) with
    | none =>
      obtain ⟨rest, h1, h2⟩ := session_grow b cap um program (n + 1) v seen
      exact ⟨rest, by simp only [Plain.session, he, h1], by simp only [Plain.session, he, h2]; omega⟩
    | some y =>
      obtain ⟨h1, h2⟩ := realm_deed b hcap h (program seen) he
      obtain ⟨rest, h3, h4⟩ := session_run b hcap program n (seen ++ [y.2]) h2
      refine ⟨rest, ?_, ?_⟩
      · simp only [Plain.session, he, Build.session, h1, h3]
      · simp only [Plain.session, he, h4, List.length_append, List.length_singleton]; omega

end Treena
