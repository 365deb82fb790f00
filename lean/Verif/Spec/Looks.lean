import Verif.Spec.Hang
import Verif.Spec.Build
/-!
# Specification: how much of a forest a call looks at

A slot of a forest is the record of links and the datum of an ID (`None` beyond the IDs issued).  A call looks at a set of
slots of a forest if its answer is the same in every forest that has the same contents there, however large and however
different that forest is otherwise.
-/
set_option autoImplicit false

namespace Treena
variable {T : Type} {α β : Type}

/-- The forests have the same contents in the slots `L`. -/
def AgreeAt (L : List Nat) (f g : Forest T) : Prop :=
  ∀ x ∈ L, g.hier.nbrs[x]? = f.hier.nbrs[x]? ∧ g.data[x]? = f.data[x]?

/-- In the forest `f` the answer of `F` is determined by at most `k` slots. -/
def Looks (k : Nat) (f : Forest T) (F : Forest T → α) : Prop :=
  ∃ L, L.length ≤ k ∧ ∀ g, AgreeAt L f g → F g = F f

/-- In the forest `f` at most `k` slots determine the answer of `F` and the new contents of all slots that it changes. -/
def Touches (k : Nat) (f : Forest T) (F : Forest T → Forest T × α) : Prop :=
  ∃ L, L.length ≤ k ∧ ∀ g, AgreeAt L f g →
    (F g).2 = (F f).2 ∧ AgreeAt L (F f).1 (F g).1 ∧
      ∀ x, x ∉ L → (F g).1.hier.nbrs[x]? = g.hier.nbrs[x]? ∧ (F g).1.data[x]? = g.data[x]?

/-- `Touches` for calls that issue an ID: among the forests that have issued as many IDs. -/
def TouchesNew (k : Nat) (f : Forest T) (F : Forest T → Forest T × α) : Prop :=
  ∃ L, L.length ≤ k ∧ ∀ g, g.hier.nbrs.length = f.hier.nbrs.length → g.data.length = f.data.length → AgreeAt L f g →
    (F g).2 = (F f).2 ∧ AgreeAt L (F f).1 (F g).1 ∧
      ∀ x, x ∉ L → (F g).1.hier.nbrs[x]? = g.hier.nbrs[x]? ∧ (F g).1.data[x]? = g.data[x]?

/-- From `x` to its parent, on to the parent of that, and so on: this stops within `n` nodes.  (In a damaged tree it may never stop.) -/
def Forest.TopWithin (f : Forest T) : Nat → Nat → Prop
  | 0, _ => False
  | n + 1, x => ∀ p, (f.hier.neighbors x).bind Neighbors.parent = some p → f.TopWithin n p

/-- The read-only calls without a loop over links, and how many slots they look at; for an iterator, making it and calling
`next` and `next_back` any number of times. -/
def Req.slots : Req T → Option Nat
  | .alive _ | .data _ => some 1
  | .link _ .parent | .link _ .next | .link _ .firstChild => some 1
  | .link _ .prev | .link _ .lastChild | .ends _ => some 2
  | .near _ .parent | .near _ .next | .near _ .firstChild => some 2
  | .near _ .prev | .near _ .lastChild => some 3
  | .nearEnds _ => some 4
  | .dft _ ds | .shallow _ _ ds => some (2 + 3 * ds.length)
  | .ancestors _ _ n => some (4 + 2 * n)
  | .row _ _ ds => some (6 + 3 * ds.length)
  | _ => none

/-- The same for a client that keeps iterators. -/
def PoolReq.slots : PoolReq T → Option Nat
  | .call q => q.slots
  | .start (.bft _) | .start (.abft _) => none
  | .start _ => some 6
  | .next _ => some 2
  | .nextBack _ => some 3
  | .peek _ | .peekBack _ => some 1
  | .maxDepth _ | .dup _ => some 0

/-- The calls with a constant bound that do not issue an ID, `detach` and writes of data included, and how many slots they look at or
change. -/
def Req.cost : Req T → Option Nat
  | .detach _ => some 9
  | .setData _ _ => some 1
  | q => q.slots

/-- A client that decides on each call by the answers so far makes `n` calls: the forest at the end and the answers. -/
def Build.dialogue (b : Build) (cap um : Nat) (client : List (Ans T) → Req T) : Nat → Forest T → List (Ans T) → Forest T × List (Ans T)
  | 0, f, seen => (f, seen)
  | n + 1, f, seen =>
    let r := b.exec cap um f (client seen)
    b.dialogue cap um client n r.1 (seen ++ [r.2])

end Treena
