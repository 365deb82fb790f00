import Verif.Model.Basic
/-!
# Model: the provided methods of `Iterator` and `DoubleEndedIterator`

No iterator of the crate defines any method of the traits besides `next`, `next_back` and (one of them) `size_hint`
(src/dynamic/forest/traverse.rs 92-116, 184-214, 248-261, 335-359, 390-404, 444-463), so that `for` loops and all other
methods are the provided ones of `core::iter`.  They are modelled here from the documented default implementations, over
an arbitrary `next` function; the `rfold` family is the same code over `next_back`.  A loop that has not ended after
`n` rounds answers `Fail.diverge`.
-/
set_option autoImplicit false

namespace Treena

/-- What the closure given to a loop does with an item (std, `ControlFlow`): go on with a new accumulator, leave the loop (`break`,
`return`, `?`), or panic. -/
inductive Flow (α β : Type) where
  | goOn (a : α)
  | leave (b : β)
  | panic
deriving DecidableEq

namespace StdIter
variable {ι σ α β : Type}

/-- `Iterator::try_fold` (std default), which is also the `for` loop that src/dynamic/forest/traverse.rs 92-463 inherits:
ask for items and give them to the closure until there is none or it leaves.
Answers how the loop ended and the iterator as it is then. -/
def tryFold (next : σ → R (Option ι × σ)) (body : α → ι → Flow α β) : Nat → σ → α → R (Flow α β × σ)
  | 0, _, _ => .error .diverge
  | n + 1, st, a =>
    match next st with
    | .error e => .error e
    | .ok (none, st') => .ok (.goOn a, st')
    | .ok (some i, st') =>
      match body a i with
      | .goOn a' => tryFold next body n st' a'
      | r => .ok (r, st')

/-- `Iterator::fold` (std default; inherited by src/dynamic/forest/traverse.rs 92-463): consumes the iterator. -/
def fold (next : σ → R (Option ι × σ)) (g : α → ι → α) : Nat → σ → α → R α
  | 0, _, _ => .error .diverge
  | n + 1, st, a =>
    match next st with
    | .error e => .error e
    | .ok (none, _) => .ok a
    | .ok (some i, st') => fold next g n st' (g a i)

/-- `Iterator::count` (std default; inherited by src/dynamic/forest/traverse.rs 92-463). -/
def count (next : σ → R (Option ι × σ)) (n : Nat) (st : σ) : R Nat := fold next (fun c _ => c + 1) n st 0

/-- `Iterator::last` (std default; inherited by src/dynamic/forest/traverse.rs 92-463). -/
def last (next : σ → R (Option ι × σ)) (n : Nat) (st : σ) : R (Option ι) := fold next (fun _ i => some i) n st none

/-- `Iterator::collect` into a vector (`Vec::from_iter`, std; inherited by src/dynamic/forest/traverse.rs 92-463): the items are
pushed in order.  The reservations made by `size_hint` are not modelled. -/
def collect (next : σ → R (Option ι × σ)) (n : Nat) (st : σ) : R (List ι) := fold next (fun l i => l ++ [i]) n st []

/-- `Iterator::advance_by` (std default; inherited by src/dynamic/forest/traverse.rs 92-463): drop `k` items, and stop at the end. -/
def advanceBy (next : σ → R (Option ι × σ)) : Nat → σ → R (Bool × σ)
  | 0, st => .ok (true, st)
  | k + 1, st =>
    match next st with
    | .error e => .error e
    | .ok (none, st') => .ok (false, st')
    | .ok (some _, st') => advanceBy next k st'

/-- `Iterator::nth` (std default; inherited by src/dynamic/forest/traverse.rs 92-463). -/
def nth (next : σ → R (Option ι × σ)) (k : Nat) (st : σ) : R (Option ι × σ) :=
  match advanceBy next k st with
  | .error e => .error e
  | .ok (false, st') => .ok (none, st')
  | .ok (true, st') => next st'

/-- `Iterator::find` (std default; inherited by src/dynamic/forest/traverse.rs 92-463). -/
def find (next : σ → R (Option ι × σ)) (p : ι → Bool) (n : Nat) (st : σ) : R (Option ι × σ) :=
  match tryFold next (fun (_ : Unit) i => if p i then Flow.leave i else Flow.goOn ()) n st () with
  | .error e => .error e
  | .ok (.leave i, st') => .ok (some i, st')
  | .ok (_, st') => .ok (none, st')

/-- `Iterator::position` (std default; inherited by src/dynamic/forest/traverse.rs 92-463). -/
def position (next : σ → R (Option ι × σ)) (p : ι → Bool) (n : Nat) (st : σ) : R (Option Nat × σ) :=
  match tryFold next (fun (k : Nat) i => if p i then Flow.leave k else Flow.goOn (k + 1)) n st 0 with
  | .error e => .error e
  | .ok (.leave k, st') => .ok (some k, st')
  | .ok (_, st') => .ok (none, st')

end StdIter
end Treena
