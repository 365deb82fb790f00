import Verif.Spec.Local
import Verif.Proof.Keeps
/-! Locality: a calculus for two runs of the same computation on states that are the same in a part. -/
set_option autoImplicit false
namespace Treena

/-- Two runs from `A`-related states have the same outcome and end in `A`-related states; each of them changes its
state only as `O` allows; returned values satisfy `good`. -/
def Loc {σ α : Type} (A O : σ → σ → Prop) (m : M σ α) (good : α → Prop) : Prop :=
  ∀ s s', A s s' → ∃ t t', A t t' ∧ O s t ∧ O s' t' ∧
    ((∃ a, m s = .ok a t ∧ m s' = .ok a t' ∧ good a) ∨ ∃ e, m s = .fail e t ∧ m s' = .fail e t')

/-- The same for read-only computations. -/
def LocR {σ α : Type} (A : σ → σ → Prop) (f : σ → R α) (good : α → Prop) : Prop :=
  ∀ s s', A s s' → f s = f s' ∧ ∀ a, f s = .ok a → good a

namespace Loc
variable {σ τ α β : Type} {A O : σ → σ → Prop} {good : α → Prop} {good' : β → Prop}

theorem pure (hO : PreOrd O) {a : α} (h : good a) : Loc A O (Pure.pure a : M σ α) good :=
  fun s s' hA => ⟨s, s', hA, hO.refl _, hO.refl _, .inl ⟨a, rfl, rfl, h⟩⟩

theorem throw (hO : PreOrd O) (e : Fail) : Loc A O (M.throw e : M σ α) good :=
  fun s s' hA => ⟨s, s', hA, hO.refl _, hO.refl _, .inr ⟨e, rfl, rfl⟩⟩

theorem panic (hO : PreOrd O) (msg : String) : Loc A O (M.panic msg : M σ α) good := Loc.throw hO _

theorem read (hO : PreOrd O) {f : σ → R α} (h : LocR A f good) : Loc A O (M.read f) good := fun s s' hA => by
  obtain ⟨h1, h2⟩ := h s s' hA
  refine ⟨s, s', hA, hO.refl _, hO.refl _, ?_⟩
  unfold M.read
  rw [← h1]
  cases e : f s with
  | ok a => exact .inl ⟨a, rfl, rfl, h2 a e⟩
  | error x => exact .inr ⟨x, rfl, rfl⟩

theorem bind (hO : PreOrd O) {m : M σ α} {k : α → M σ β} (hm : Loc A O m good)
    (hk : ∀ a, good a → Loc A O (k a) good') : Loc A O (m >>= k) good' := fun s s' hA => by
  obtain ⟨t, t', h1, h2, h3, h4⟩ := hm s s' hA
  rcases h4 with ⟨a, e1, e2, hg⟩ | ⟨e, e1, e2⟩
  · obtain ⟨u, u', g1, g2, g3, g4⟩ := hk a hg t t' h1
    refine ⟨u, u', g1, hO.trans h2 g2, hO.trans h3 g3, ?_⟩
    rw [M.run_bind, M.run_bind, e1, e2]
    exact g4
  · refine ⟨t, t', h1, h2, h3, .inr ⟨e, ?_, ?_⟩⟩
    · rw [M.run_bind, e1]
    · rw [M.run_bind, e2]

theorem weaken {m : M σ α} {good₂ : α → Prop} (hm : Loc A O m good) (h : ∀ a, good a → good₂ a) : Loc A O m good₂ :=
  fun s s' hA => by
    obtain ⟨t, t', h1, h2, h3, h4⟩ := hm s s' hA
    refine ⟨t, t', h1, h2, h3, ?_⟩
    rcases h4 with ⟨a, e1, e2, hg⟩ | h4
    · exact .inl ⟨a, e1, e2, h a hg⟩
    · exact .inr h4

theorem modify (g : σ → σ) (h : ∀ s s', A s s' → A (g s) (g s') ∧ O s (g s) ∧ O s' (g s')) {good : Unit → Prop}
    (hg : good ()) : Loc A O (M.modify g) good := fun s s' hA =>
  ⟨g s, g s', (h s s' hA).1, (h s s' hA).2.1, (h s s' hA).2.2, .inl ⟨(), rfl, rfl, hg⟩⟩

theorem zoom {A' O' : τ → τ → Prop} {get : τ → σ} {set : σ → τ → τ} {m : M σ α} (hm : Loc A O m good)
    (hget : ∀ t t', A' t t' → A (get t) (get t'))
    (hset : ∀ t t' s s', A' t t' → A s s' → O (get t) s → O (get t') s' →
      A' (set s t) (set s' t') ∧ O' t (set s t) ∧ O' t' (set s' t')) : Loc A' O' (M.zoom get set m) good :=
  fun t t' hA => by
    obtain ⟨u, u', h1, h2, h3, h4⟩ := hm _ _ (hget t t' hA)
    obtain ⟨g1, g2, g3⟩ := hset t t' u u' hA h1 h2 h3
    refine ⟨_, _, g1, g2, g3, ?_⟩
    unfold M.zoom
    rcases h4 with ⟨a, e1, e2, hg⟩ | ⟨e, e1, e2⟩
    · rw [e1, e2]; exact .inl ⟨a, rfl, rfl, hg⟩
    · rw [e1, e2]; exact .inr ⟨e, rfl, rfl⟩

theorem ite {p : Prop} [Decidable p] {m m' : M σ α} (h1 : p → Loc A O m good) (h2 : ¬ p → Loc A O m' good) :
    Loc A O (if p then m else m') good := by
  by_cases hp : p
  · rw [if_pos hp]; exact h1 hp
  · rw [if_neg hp]; exact h2 hp

end Loc

namespace LocR
variable {σ α β : Type} {A : σ → σ → Prop} {good : α → Prop} {good' : β → Prop}

theorem const {r : R α} (h : ∀ a, r = .ok a → good a) : LocR A (fun _ => r) good := fun _ _ _ => ⟨rfl, h⟩

end LocR

/-! ### Parts of the arena -/
namespace Hier
variable {cap : Nat} {Q : Nat → Prop}

/-- All nodes of an optional ID are in the part. -/
abbrev InO (Q : Nat → Prop) (o : Option Nat) : Prop := ∀ y, o = some y → Q y

/-- All links of a record stay in the part. -/
abbrev InN (Q : Nat → Prop) (nb : Neighbors) : Prop := ∀ y, nb.mentions y → Q y

/-- The two arenas are the same in the part, which is separate. -/
structure Same (cap : Nat) (Q : Nat → Prop) (h h' : Hier) : Prop where
  size : h.nbrs.length = h'.nbrs.length
  links : ∀ x, Q x → h.neighbors x = h'.neighbors x
  closed : ∀ x, Q x → ∀ nb, h.neighbors x = some nb → InN Q nb
  fresh : ∀ x, h.nbrs.length ≤ x → x < cap → Q x

/-- Nothing outside the part is changed. -/
def Out (Q : Nat → Prop) (h h' : Hier) : Prop := ∀ x, ¬ Q x → h'.nbrs[x]? = h.nbrs[x]?

theorem out_ord : PreOrd (Out Q) := ⟨fun _ _ _ => rfl, fun h1 h2 x hx => (h2 x hx).trans (h1 x hx)⟩

variable {h h' : Hier}

theorem InN.parent {nb : Neighbors} (hn : InN Q nb) : InO Q nb.parent := fun y hy => hn y (.inl hy)
theorem InN.prevCyc {nb : Neighbors} (hn : InN Q nb) : InO Q nb.prevCyc := fun y hy => hn y (.inr (.inl hy))
theorem InN.next {nb : Neighbors} (hn : InN Q nb) : InO Q nb.next := fun y hy => hn y (.inr (.inr (.inl hy)))
theorem InN.first {nb : Neighbors} (hn : InN Q nb) : InO Q nb.first := fun y hy => hn y (.inr (.inr (.inr hy)))
theorem InN.mk {nb : Neighbors} (h1 : InO Q nb.parent) (h2 : InO Q nb.prevCyc) (h3 : InO Q nb.next)
    (h4 : InO Q nb.first) : InN Q nb := fun y hy => by
  rcases hy with h | h | h | h
  · exact h1 y h
  · exact h2 y h
  · exact h3 y h
  · exact h4 y h

theorem InO.none : InO Q none := fun _ h => by cases h
theorem InO.some {x : Nat} (hx : Q x) : InO Q (some x) := fun _ h => by cases h; exact hx

theorem getParent_in {nb : Neighbors} (hn : InN Q nb) {o : Option Nat} (h : nb.getParent = .ok o) : InO Q o := by
  unfold Neighbors.getParent at h; split at h
  · cases h
  · cases h; exact hn.parent
theorem nextSibling_in {nb : Neighbors} (hn : InN Q nb) {o : Option Nat} (h : nb.nextSibling = .ok o) : InO Q o := by
  unfold Neighbors.nextSibling at h; split at h
  · cases h
  · cases h; exact hn.next
theorem firstChild_in {nb : Neighbors} (hn : InN Q nb) {o : Option Nat} (h : nb.firstChild = .ok o) : InO Q o := by
  unfold Neighbors.firstChild at h; split at h
  · cases h
  · cases h; exact hn.first

theorem prevSibling_loc {nb : Neighbors} (hn : InN Q nb) : LocR (Same cap Q) (fun h => nb.prevSibling h) (InO Q) :=
  fun h h' hs => by
    unfold Neighbors.prevSibling
    cases hp : nb.prevCyc with
    | none => exact ⟨rfl, fun _ h => by cases h⟩
    | some v =>
      have hv := hn.prevCyc v hp
      simp only
      rw [← hs.links v hv]
      refine ⟨rfl, fun a ha => ?_⟩
      cases hb : h.neighbors v with
      | none => rw [hb] at ha; cases ha
      | some c =>
        rw [hb] at ha
        simp only at ha
        cases hc : c.next with
        | none => rw [hc] at ha; cases ha; exact InO.none
        | some _ => rw [hc] at ha; cases ha; exact InO.some hv

theorem firstLastChild_loc {nb : Neighbors} (hn : InN Q nb) :
    LocR (Same cap Q) (fun h => nb.firstLastChild h) (fun o => ∀ p, o = some p → Q p.1 ∧ Q p.2) := fun h h' hs => by
  unfold Neighbors.firstLastChild
  split
  · exact ⟨rfl, fun _ h => by cases h⟩
  · cases hf : nb.firstChild with
    | error e => exact ⟨rfl, fun _ h => by cases h⟩
    | ok o =>
      cases o with
      | none => exact ⟨rfl, fun _ h => by cases h; intro p hp; cases hp⟩
      | some c =>
        have hc := firstChild_in hn hf c rfl
        simp only
        rw [← hs.links c hc]
        refine ⟨rfl, fun a ha => ?_⟩
        cases hb : h.neighbors c with
        | none => rw [hb] at ha; cases ha
        | some nc =>
          rw [hb] at ha
          have hin := hs.closed c hc nc hb
          cases hp : nc.prevCyc with
          | none => simp only [hp] at ha; cases ha
          | some l =>
            simp only [hp] at ha; cases ha
            intro p e; cases e; exact ⟨hc, hin.prevCyc l hp⟩

theorem lastChild_loc {nb : Neighbors} (hn : InN Q nb) : LocR (Same cap Q) (fun h => nb.lastChild h) (InO Q) :=
  fun h h' hs => by
    obtain ⟨h1, h2⟩ := firstLastChild_loc hn h h' hs
    simp only at h1 h2
    unfold Neighbors.lastChild
    dsimp only
    rw [← h1]
    refine ⟨rfl, fun a ha => ?_⟩
    cases e : nb.firstLastChild h with
    | error e' => rw [e] at ha; cases ha
    | ok o =>
      rw [e] at ha
      cases o with
      | none => cases ha; exact InO.none
      | some p => cases ha; exact InO.some (h2 _ e p rfl).2

theorem nbr_loc {x : Nat} (hx : Q x) (msg : String) : LocR (Same cap Q) (fun h => expect (h.neighbors x) msg) (InN Q) :=
  fun h h' hs => by
    dsimp only
    refine ⟨by rw [hs.links x hx], fun a ha => ?_⟩
    cases e : h.neighbors x with
    | none => rw [e] at ha; cases ha
    | some nb => rw [e] at ha; cases ha; exact hs.closed x hx _ e

theorem Same.alive (hs : Same cap Q h h') {x : Nat} (hx : Q x) : h.isAlive x = h'.isAlive x := by
  have := hs.links x hx
  rw [neighbors_eq, neighbors_eq] at this
  rw [isAlive_eq, isAlive_eq]
  cases e : (h.get x).isAlive <;> cases e' : (h'.get x).isAlive <;> simp [e, e'] at this ⊢

theorem nbrOf_loc {x : Nat} (hx : Q x) (msg : String) : Loc (Same cap Q) (Out Q) (nbrOf x msg) (InN Q) :=
  Loc.read out_ord (nbr_loc hx msg)

theorem neighbors_set (h : Hier) {x : Nat} {nb : Neighbors} (hb : h.neighbors x = some nb) (n : Neighbors) (y : Nat) :
    (Hier.mk (h.nbrs.set x n)).neighbors y =
      if y = x then (if n.isAlive then some n else none) else h.neighbors y := by
  have hl : h.live x := by
    apply Classical.byContradiction; intro hn; rw [neighbors_dead hn] at hb; cases hb
  have hg := get_put (live_lt hl) n y
  change (Hier.put h x n).neighbors y = _
  rw [neighbors_eq, neighbors_eq, hg]
  by_cases e : y = x <;> simp [e]

theorem updNbr_loc {x : Nat} (hx : Q x) (msg : String) {f : Neighbors → Neighbors} (hf : ∀ nb, InN Q nb → InN Q (f nb)) :
    Loc (Same cap Q) (Out Q) (updNbr x msg f) (fun _ => True) := fun h h' hs => by
  unfold updNbr
  have he := hs.links x hx
  cases e : h.neighbors x with
  | none =>
    rw [e] at he
    simp only [← he]
    exact ⟨h, h', hs, out_ord.refl _, out_ord.refl _, .inr ⟨_, rfl, rfl⟩⟩
  | some nb =>
    rw [e] at he
    simp only [← he]
    refine ⟨⟨h.nbrs.set x (f nb)⟩, ⟨h'.nbrs.set x (f nb)⟩, ⟨?_, ?_, ?_, ?_⟩, ?_, ?_, .inl ⟨_, rfl, rfl, trivial⟩⟩
    · simpa using hs.size
    · intro y hy
      rw [neighbors_set h e, neighbors_set h' he.symm, hs.links y hy]
    · intro y hy n hn
      rw [neighbors_set h e] at hn
      split at hn
      · split at hn
        · cases hn; exact hf nb (hs.closed x hx nb e)
        · cases hn
      · exact hs.closed y hy n hn
    · intro y hy; exact hs.fresh y (by simpa using hy)
    · intro y hy
      have : x ≠ y := fun e => hy (e ▸ hx)
      simp [this]
    · intro y hy
      have : x ≠ y := fun e => hy (e ▸ hx)
      simp [this]

end Hier
end Treena
