import Verif.Proof.Damage
/-!
# How one overwritten link shows in the accessors
-/
namespace Treena
open Shape Hier
variable {T : Type} {f : Forest T} {s : Shape} {x P : Nat} {A B : List Nat}

/-- The forest with one record overwritten. -/
def Forest.over (f : Forest T) (a : Nat) (nb : Neighbors) : Forest T := { f with hier := f.hier.put a nb }

variable {a : Nat} {nb : Neighbors}

theorem neighbors_over (ha : f.hier.live a) (hn : nb.isAlive = true) (z : Nat) :
    (f.over a nb).hier.neighbors z = if z = a then some nb else f.hier.neighbors z := by
  show (f.hier.put a nb).neighbors z = _
  rw [neighbors_eq, get_put (live_lt ha), neighbors_eq]
  split
  · simp [hn]
  · rfl

theorem seen_parent (ha : f.hier.live a) (hn : nb.isAlive = true) (h : nb.parent = (f.hier.get a).parent) (z : Nat) :
    (f.over a nb).parentId z = f.parentId z := by
  unfold Forest.parentId Forest.nbr
  rw [neighbors_over ha hn]
  by_cases e : z = a
  · subst e; rw [if_pos rfl, neighbors_live ha]; simp [Neighbors.getParent, hn, h, show (f.hier.get z).isAlive = true from ha]
  · rw [if_neg e]

theorem seen_next (ha : f.hier.live a) (hn : nb.isAlive = true) (z : Nat) :
    (f.over a nb).nextSiblingId z = if z = a then .ok nb.next else f.nextSiblingId z := by
  unfold Forest.nextSiblingId Forest.nbr
  rw [neighbors_over ha hn]
  by_cases e : z = a
  · rw [if_pos e, if_pos e]; simp [Neighbors.nextSibling, hn]
  · rw [if_neg e, if_neg e]

theorem seen_first (ha : f.hier.live a) (hn : nb.isAlive = true) (z : Nat) :
    (f.over a nb).firstChildId z = if z = a then .ok nb.first else f.firstChildId z := by
  unfold Forest.firstChildId Forest.nbr
  rw [neighbors_over ha hn]
  by_cases e : z = a
  · rw [if_pos e, if_pos e]; simp [Neighbors.firstChild, hn]
  · rw [if_neg e, if_neg e]

/-- `prev_sibling_id`: of the node itself and of the nodes that point to it. -/
theorem seen_prev (ha : f.hier.live a) (hn : nb.isAlive = true) (z : Nat)
    (hz : z ≠ a → (f.hier.get z).prevCyc = some a → nb.next.isSome = (f.hier.get a).next.isSome)
    (hs : nb.prevCyc = (f.hier.get a).prevCyc → z = a → (f.hier.get a).prevCyc = some a → nb.next.isSome = (f.hier.get a).next.isSome)
    (hd : z = a → nb.prevCyc = (f.hier.get a).prevCyc) :
    (f.over a nb).prevSiblingId z = f.prevSiblingId z := by
  unfold Forest.prevSiblingId Forest.nbr
  rw [neighbors_over ha hn]
  have key : ∀ v, nb.next.isSome = (f.hier.get a).next.isSome ∨ v ≠ a →
      (match (f.over a nb).hier.neighbors v with
        | none => (.error (.panic "[consistency] the `prev_sibling_cyclic` node must be alive") : R (Option Nat))
        | some prevCycNode => .ok (prevCycNode.next.bind fun _ => some v)) =
      match f.hier.neighbors v with
        | none => .error (.panic "[consistency] the `prev_sibling_cyclic` node must be alive")
        | some prevCycNode => .ok (prevCycNode.next.bind fun _ => some v) := by
    intro v hv
    rw [neighbors_over ha hn]
    by_cases e : v = a
    · subst e
      rw [if_pos rfl, neighbors_live ha]
      rcases hv with hv | hv
      · dsimp only
        cases h1 : nb.next <;> cases h2 : (f.hier.get v).next <;> simp [h1, h2] at hv ⊢
      · exact absurd rfl hv
    · rw [if_neg e]
  by_cases e : z = a
  · subst e
    rw [if_pos rfl, neighbors_live ha]
    simp only [expect_some, Neighbors.prevSibling, hd rfl]
    cases hv : (f.hier.get z).prevCyc with
    | none => rfl
    | some v =>
      refine key v ?_
      by_cases e : v = z
      · subst e; exact .inl (hs (hd rfl) rfl hv)
      · exact .inr e
  · rw [if_neg e]
    cases hl : f.hier.neighbors z with
    | none => rfl
    | some w =>
      have hw : w = f.hier.get z := by
        by_cases h : f.hier.live z
        · rw [neighbors_live h] at hl; exact (Option.some.inj hl).symm
        · rw [neighbors_dead h] at hl; cases hl
      subst hw
      simp only [expect_some, Neighbors.prevSibling]
      cases hv : (f.hier.get z).prevCyc with
      | none => rfl
      | some v =>
        refine key v ?_
        by_cases e' : v = a
        · subst e'; exact .inl (hz e hv)
        · exact .inr e'

theorem seen_last (ha : f.hier.live a) (hn : nb.isAlive = true) (z : Nat) (hd : z = a → nb.first = (f.hier.get a).first)
    (hz : (f.hier.get z).first = some a → nb.prevCyc = (f.hier.get a).prevCyc) :
    (f.over a nb).lastChildId z = f.lastChildId z := by
  unfold Forest.lastChildId Forest.nbr
  rw [neighbors_over ha hn]
  have key : ∀ w : Neighbors, (w.first = some a → nb.prevCyc = (f.hier.get a).prevCyc) →
      w.lastChild (f.over a nb).hier = w.lastChild f.hier := by
    intro w hw
    unfold Neighbors.lastChild Neighbors.firstLastChild Neighbors.firstChild
    cases w.isAlive
    · rfl
    · cases hf : w.first with
      | none => rfl
      | some c =>
        simp only [Bool.not_true, Bool.false_eq_true, if_false, neighbors_over ha hn]
        by_cases e : c = a
        · subst e
          rw [if_pos rfl, neighbors_live ha]
          simp only [hw hf]
        · rw [if_neg e]
  by_cases e : z = a
  · subst e
    rw [if_pos rfl, neighbors_live ha]
    simp only [expect_some]
    rw [key _ (by rw [hd rfl]; exact hz)]
    unfold Neighbors.lastChild Neighbors.firstLastChild Neighbors.firstChild
    rw [hn, hd rfl, show (f.hier.get z).isAlive = true from ha]
  · rw [if_neg e]
    cases hl : f.hier.neighbors z with
    | none => rfl
    | some w =>
      have hw : w = f.hier.get z := by
        by_cases h : f.hier.live z
        · rw [neighbors_live h] at hl; exact (Option.some.inj hl).symm
        · rw [neighbors_dead h] at hl; cases hl
      subst hw
      exact key _ hz

theorem get_over (ha : f.hier.live a) (z : Nat) : (f.over a nb).hier.get z = if z = a then nb else f.hier.get z :=
  get_put (live_lt ha) nb z

theorem live_over (ha : f.hier.live a) (hn : nb.isAlive = true) (z : Nat) (hz : f.hier.live z) : (f.over a nb).hier.live z := by
  unfold Hier.live
  rw [get_over ha]
  split
  · exact hn
  · exact hz

end Treena
