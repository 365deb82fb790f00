import Verif.Spec.Models
/-!
# Specification: which answers of the accessors have changed
-/
set_option autoImplicit false

namespace Treena
variable {T : Type}

/-- `g'` answers like `g`, except that it answers `b` for the argument `a` for every `(a, b)` in the list. -/
def Override (g g' : Nat → R (Option Nat)) (l : List (Nat × Option Nat)) : Prop :=
  (∀ p ∈ l, g' p.1 = .ok p.2) ∧ ∀ z, z ∉ l.map Prod.fst → g' z = g z

/-- The forest `f'` has the data of `f`, and its accessors answer as those of `f` except for the listed answers of `first_child_id`,
`last_child_id`, `next_sibling_id` and `prev_sibling_id`. -/
structure Damage (f f' : Forest T) (first last next prev : List (Nat × Option Nat)) : Prop where
  data : f'.data = f.data
  parent : ∀ z, f'.parentId z = f.parentId z
  first : Override f.firstChildId f'.firstChildId first
  last : Override f.lastChildId f'.lastChildId last
  next : Override f.nextSiblingId f'.nextSiblingId next
  prev : Override f.prevSiblingId f'.prevSiblingId prev


/-- The requests for the place where the node `x` already is, and for each of them: whether the call returns, and which answers of
`first_child_id`, `last_child_id`, `next_sibling_id` and `prev_sibling_id` are different afterwards.  `s.kids P` is the list of the
children of `P` before the call. -/
inductive Slip (s : Shape) (x : Nat) : InsertAs → Bool → (first last next prev : List (Nat × Option Nat)) → Prop where
  /-- first child, there are others: the second child has no previous sibling any more -/
  | first {P y : Nat} {B : List Nat} (hk : s.kids P = x :: y :: B) : Slip s x (.firstChildOf P) true [] [] [] [(y, none)]
  /-- last child, there are others: it and the last but one do not know each other any more -/
  | last {P p : Nat} {A : List Nat} (hk : s.kids P = A ++ [p, x]) : Slip s x (.lastChildOf P) true [] [] [(p, none)] [(x, none)]
  /-- the only child as the last child: a panic, and the parent has no children any more -/
  | only {P : Nat} (hk : s.kids P = [x]) : Slip s x (.lastChildOf P) false [(P, none)] [(P, none)] [] []
  /-- before its next sibling: the previous sibling skips it -/
  | before {P p y : Nat} {A B : List Nat} (hk : s.kids P = A ++ p :: x :: y :: B) : Slip s x (.previousSiblingOf y) true [] [] [(p, some y)] []
  /-- the first child before its next sibling: that one is the first child now, and the node the last one -/
  | beforeFirst {P y : Nat} {B : List Nat} (hk : s.kids P = x :: y :: B) :
      Slip s x (.previousSiblingOf y) true [(P, some y)] [(P, some x)] [] []
  /-- after its previous sibling: the next sibling skips it -/
  | after {P p y : Nat} {A B : List Nat} (hk : s.kids P = A ++ p :: x :: y :: B) : Slip s x (.nextSiblingOf p) true [] [] [] [(y, some p)]
  /-- the last child after its previous sibling: that one is the last child now, and the previous sibling of the first -/
  | afterLast {P p c : Nat} {A : List Nat} (hk : s.kids P = A ++ [p, x]) (hc : (A ++ [p]).head? = some c) :
      Slip s x (.nextSiblingOf p) true [] [(P, some p)] [] [(c, some p)]

/-- The two kinds of in-place requests whose damage `detach(x)` does not repair, by the answers of the accessors: the last child, not
the first one, as the last child; and the first child before the second one. -/
def Lasting (f : Forest T) (x : Nat) : InsertAs → Prop
  | .lastChildOf P => f.lastChildId P = .ok (some x) ∧ f.firstChildId P ≠ .ok (some x)
  | .previousSiblingOf y => f.prevSiblingId y = .ok (some x) ∧ f.prevSiblingId x = .ok none
  | _ => False

end Treena
