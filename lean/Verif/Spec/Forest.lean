/-!
# Specification: ordered forests

This file does not mention the implementation.  A `Shape` says which IDs are live, what the parent
of each live node is and what the ordered child list of each live node is.
-/

set_option autoImplicit false

namespace Treena

/-- The elements of `L` strictly before the first occurrence of `x`. -/
def before (L : List Nat) (x : Nat) : List Nat := L.takeWhile (fun y => y != x)

/-- The elements of `L` strictly after the first occurrence of `x`. -/
def after (L : List Nat) (x : Nat) : List Nat := (L.dropWhile (fun y => y != x)).tail

/-- An ordered forest on the IDs `0, …, size - 1`, some of which may be dead. -/
structure Shape where
  /-- number of IDs handed out so far -/
  size : Nat
  alive : Nat → Bool
  parent : Nat → Option Nat
  kids : Nat → List Nat

/-- Following `parent` from `x` reaches a root after finitely many steps. -/
inductive Rooted (parent : Nat → Option Nat) : Nat → Prop where
  | root {x : Nat} : parent x = none → Rooted parent x
  | step {x p : Nat} : parent x = some p → Rooted parent p → Rooted parent x

/-- `a` is `x` or an ancestor of `x`. -/
inductive AncOrSelf (parent : Nat → Option Nat) (a : Nat) : Nat → Prop where
  | refl : AncOrSelf parent a a
  | step {x p : Nat} : parent x = some p → AncOrSelf parent a p → AncOrSelf parent a x

/-- `UpPath parent x l`: `l` is `x`, its parent, its grandparent, … up to the root. -/
inductive UpPath (parent : Nat → Option Nat) : Nat → List Nat → Prop where
  | root {x : Nat} : parent x = none → UpPath parent x [x]
  | step {x p : Nat} {l : List Nat} : parent x = some p → UpPath parent p l → UpPath parent x (x :: l)

namespace Shape

/-- Well-formedness of an ordered forest. -/
structure Valid (s : Shape) : Prop where
  alive_lt : ∀ x, s.alive x = true → x < s.size
  parent_alive : ∀ x p, s.parent x = some p → s.alive x = true ∧ s.alive p = true
  mem_kids : ∀ x p, x ∈ s.kids p ↔ s.parent x = some p
  kids_nodup : ∀ p, (s.kids p).Nodup
  rooted : ∀ x, Rooted s.parent x

/-- The siblings of `x` including itself, in order; a root is its only sibling. -/
def sibs (s : Shape) (x : Nat) : List Nat :=
  match s.parent x with
  | some p => s.kids p
  | none => [x]

/-- Previous sibling. -/
def prev (s : Shape) (x : Nat) : Option Nat := (before (s.sibs x) x).getLast?
/-- Next sibling. -/
def next (s : Shape) (x : Nat) : Option Nat := (after (s.sibs x) x).head?
/-- First child. -/
def first (s : Shape) (x : Nat) : Option Nat := (s.kids x).head?
/-- Last child. -/
def last (s : Shape) (x : Nat) : Option Nat := (s.kids x).getLast?

/-- The empty forest. -/
def empty : Shape := { size := 0, alive := fun _ => false, parent := fun _ => none, kids := fun _ => [] }

/-- Update a function at one point. -/
def upd {β : Type} (f : Nat → β) (a : Nat) (b : β) : Nat → β := fun x => if x = a then b else f x

/-- A new isolated root whose ID is `size`. -/
def addRoot (s : Shape) : Shape :=
  { s with size := s.size + 1, alive := upd s.alive s.size true }

/-- Cut the link from `x` to its parent: `x` becomes a root, keeping its own children. -/
def detach (s : Shape) (x : Nat) : Shape :=
  { s with
    parent := upd s.parent x none
    kids := fun q => (s.kids q).erase x }

/-- Make the root `x` a child of `p`, the new child list of `p` being `l`. -/
def attach (s : Shape) (x p : Nat) (l : List Nat) : Shape :=
  { s with parent := upd s.parent x (some p), kids := upd s.kids p l }

end Shape

/-- Where a node is to be put, relative to an anchor. -/
inductive Place where
  | firstChildOf (a : Nat)
  | lastChildOf (a : Nat)
  | before (a : Nat)
  | after (a : Nat)
deriving DecidableEq, Repr

/-- The list `l` with `x` added at the requested place. -/
def Place.put (pl : Place) (x : Nat) (l : List Nat) : List Nat :=
  match pl with
  | .firstChildOf _ => x :: l
  | .lastChildOf _ => l ++ [x]
  | .before a => Treena.before l a ++ x :: a :: Treena.after l a
  | .after a => Treena.before l a ++ a :: x :: Treena.after l a

/-- The node the place is relative to. -/
def Place.anchor : Place → Nat
  | .firstChildOf a => a
  | .lastChildOf a => a
  | .before a => a
  | .after a => a

namespace Shape

/-- The node that will be the parent (none for a place next to a root). -/
def placeParent (s : Shape) : Place → Option Nat
  | .firstChildOf a => some a
  | .lastChildOf a => some a
  | .before a => s.parent a
  | .after a => s.parent a

/-- Move `x` with its subtree to the place: take it out, then put it into the child list. -/
def move (s : Shape) (x : Nat) (pl : Place) : Shape :=
  match s.placeParent pl with
  | none => s
  | some p => (s.detach x).attach x p (pl.put x ((s.detach x).kids p))

/-- `x` already is at the place. -/
def At (s : Shape) (x : Nat) : Place → Prop
  | .firstChildOf a => s.first a = some x
  | .lastChildOf a => s.last a = some x
  | .before a => s.prev a = some x
  | .after a => s.next a = some x

/-- Take `x` out of its parent's child list, its own children taking its place there, in order. -/
def splice (s : Shape) (x p : Nat) : Shape :=
  { s with
    parent := fun y => if y = x then none else if y ∈ s.kids x then some p else s.parent y
    kids := fun q =>
      if q = x then []
      else if q = p then before (s.kids p) x ++ s.kids x ++ after (s.kids p) x
      else s.kids q }

/-- Kill the nodes satisfying `dead`. -/
def kill (s : Shape) (dead : Nat → Bool) : Shape :=
  { s with
    alive := fun y => s.alive y && !dead y
    parent := fun y => if dead y then none else s.parent y
    kids := fun q => if dead q then [] else (s.kids q).filter (fun y => !dead y) }

end Shape

end Treena
