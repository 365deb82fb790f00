import Verif.Model.Basic
/-!
# Specification: clients of iterators

`drive` is a client calling `next` / `next_back` in an arbitrary order, `pull` one calling `next`.
`dequeRun` says what such a client gets from a plain double-ended queue.
-/

set_option autoImplicit false

namespace Treena

/-- Which end the client asks for an item. -/
inductive Dir where
  | front
  | back
deriving DecidableEq, Repr

/-- Items obtained by popping a list at its two ends, `none` when it is empty. -/
def dequeRun {ι : Type} : List ι → List Dir → List (Option ι)
  | _, [] => []
  | l, .front :: ds => l.head? :: dequeRun l.tail ds
  | l, .back :: ds => l.getLast? :: dequeRun l.dropLast ds

/-- Items obtained from a double-ended iterator; an error is a panic or a divergence. -/
def drive {ι σ : Type} (next nextBack : σ → R (Option ι × σ)) : σ → List Dir → R (List (Option ι))
  | _, [] => .ok []
  | st, d :: ds =>
    match (match d with | .front => next st | .back => nextBack st) with
    | .error e => .error e
    | .ok (o, st') =>
      match drive next nextBack st' ds with
      | .error e => .error e
      | .ok os => .ok (o :: os)

/-- Items obtained by `n` calls of `next`. -/
def pull {ι σ : Type} (next : σ → R (Option ι × σ)) : Nat → σ → R (List (Option ι))
  | 0, _ => .ok []
  | n + 1, st =>
    match next st with
    | .error e => .error e
    | .ok (o, st') =>
      match pull next n st' with
      | .error e => .error e
      | .ok os => .ok (o :: os)

/-- What `n` calls of `next` give on an iterator over `l`: its elements, then `none` forever. -/
def pulls {ι : Type} (l : List ι) (n : Nat) : List (Option ι) := (List.range n).map fun i => l[i]?

/-- A double-ended iterator over exactly the list `L`: forwards it gives `L`, and under any interleaving of
`next` and `next_back` it acts as the deque `L`. -/
def IteratesOver {ι σ : Type} (next nextBack : σ → R (Option ι × σ)) (start : R σ) (L : List ι) : Prop :=
  ∃ st, start = .ok st ∧ (∀ n, pull next n st = .ok (pulls L n)) ∧
    ∀ ds, drive next nextBack st ds = .ok (dequeRun L ds)

/-- The iterator state after `n` calls of `next`. -/
def advance {ι σ : Type} (next : σ → R (Option ι × σ)) : Nat → σ → R σ
  | 0, st => .ok st
  | n + 1, st =>
    match next st with
    | .error e => .error e
    | .ok (_, st') => advance next n st'

/-- The iterator state after a sequence of `next` / `next_back` calls. -/
def driveState {ι σ : Type} (next nextBack : σ → R (Option ι × σ)) : σ → List Dir → R σ
  | st, [] => .ok st
  | st, d :: ds =>
    match (match d with | .front => next st | .back => nextBack st) with
    | .error e => .error e
    | .ok (_, st') => driveState next nextBack st' ds

/-- What remains of a list after popping it at its two ends. -/
def dequeRest {ι : Type} : List ι → List Dir → List ι
  | l, [] => l
  | l, .front :: ds => dequeRest l.tail ds
  | l, .back :: ds => dequeRest l.dropLast ds

/-- Once the iterator has answered `None` at either end, it answers `None` at both ends forever. -/
def Fused {ι σ : Type} (next nextBack : σ → R (Option ι × σ)) : Prop :=
  ∀ st st', (next st = .ok (none, st') ∨ nextBack st = .ok (none, st')) →
    ∀ ds, drive next nextBack st' ds = .ok (ds.map fun _ => none)

/-- The same for a single-ended iterator. -/
def Fused1 {ι σ : Type} (next : σ → R (Option ι × σ)) : Prop :=
  ∀ st st', next st = .ok (none, st') → ∀ n, pull next n st' = .ok (List.replicate n none)

/-- `peek` predicts `next`. -/
def Predicts {ι σ : Type} (peek : σ → R (Option ι)) (next : σ → R (Option ι × σ)) : Prop :=
  ∀ st o st', next st = .ok (o, st') → peek st = .ok o

end Treena
