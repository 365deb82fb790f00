import Verif.Model.StdIter
import Verif.Spec.Pool
/-!
# Specification: loops over a list
-/
set_option autoImplicit false

namespace Treena
variable {ι α β : Type}

/-- A loop over a list that the body may leave: how it ends, and the items it has not looked at. -/
def loopOver (body : α → ι → Flow α β) : List ι → α → Flow α β × List ι
  | [], a => (.goOn a, [])
  | i :: l, a => match body a i with
    | .goOn a' => loopOver body l a'
    | .leave b => (.leave b, l)
    | .panic => (.panic, l)

/-- All provided methods that ask at one end, on a state that has the items `L` still to give at that end, do what they do on the
list `L`: they end, and the iterator that they leave has the items which they did not take.  `Has` says which items a
state has still to give. -/
structure LoopsOver {σ : Type} (next : σ → R (Option ι × σ)) (Has : σ → List ι → Prop) (st : σ) (L : List ι) : Prop where
  /-- `for` loops and `try_fold`, with any body -/
  loop : ∀ (α β : Type) (body : α → ι → Flow α β) (a : α) (n : Nat), L.length < n → ∃ st',
    StdIter.tryFold next body n st a = .ok ((loopOver body L a).1, st') ∧ Has st' (loopOver body L a).2
  fold : ∀ (α : Type) (g : α → ι → α) (a : α) (n : Nat), L.length < n → StdIter.fold next g n st a = .ok (L.foldl g a)
  count : ∀ n, L.length < n → StdIter.count next n st = .ok L.length
  last : ∀ n, L.length < n → StdIter.last next n st = .ok L.getLast?
  collect : ∀ n, L.length < n → StdIter.collect next n st = .ok L
  nth : ∀ k, ∃ st', StdIter.nth next k st = .ok (L[k]?, st') ∧ Has st' (L.drop (k + 1))
  find : ∀ (p : ι → Bool) (n : Nat), L.length < n → ∃ st',
    StdIter.find next p n st = .ok (L.find? p, st') ∧ Has st' (L.drop (L.findIdx p + 1))
  position : ∀ (p : ι → Bool) (n : Nat), L.length < n → ∃ st',
    StdIter.position next p n st = .ok (L.findIdx? p, st') ∧ Has st' (L.drop (L.findIdx p + 1))

/-- `next_back` of an iterator, for the types that have it (for the others, a panic). -/
def Iter.nextBack' {T : Type} (f : Forest T) (it : Iter) : R (Option Item × Iter) :=
  (it.nextBack f).getD (.error (.panic "no such method"))

/-- The iterator has exactly the items of `L` still to give: called with `next` it gives them and then nothing more, and if it is
double-ended it acts as the deque `L` whichever ends it is asked at. -/
def HasLeft {T : Type} (um : Nat) (f : Forest T) (double : Bool) (it : Iter) (L : List Item) : Prop :=
  (∀ k, pull (Iter.next um f) k it = .ok (pulls L k)) ∧
  (double = true → ∀ ds, drive (Iter.next um f) (Iter.nextBack' f) it ds = .ok (dequeRun L ds))

end Treena
