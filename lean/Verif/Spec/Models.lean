import Verif.Spec.Forest
import Verif.Model.Forest
/-!
# How a forest value represents a `Shape`

`Repr` is the arena layout (the representation invariant), `Models` adds the data storage,
`Describes` is what the public accessors of `Forest` / `Node` report.
-/

set_option autoImplicit false

namespace Treena

/-- `InsertAs` read as a place of the specification. -/
def InsertAs.place : InsertAs → Place
  | .firstChildOf a => .firstChildOf a
  | .lastChildOf a => .lastChildOf a
  | .previousSiblingOf a => .before a
  | .nextSiblingOf a => .after a

/-- The arena record of a live node: `prevCyc` of a first sibling is the last sibling. -/
def Shape.link (s : Shape) (x : Nat) : Neighbors :=
  { parent := s.parent x
    prevCyc := (s.prev x).or (s.sibs x).getLast?
    next := s.next x
    first := s.first x }

/-- The arena record of any node. -/
def Shape.entry (s : Shape) (x : Nat) : Neighbors :=
  if s.alive x then s.link x else Neighbors.removed

/-- The arena `h` stores the shape `s`. -/
def Repr (h : Hier) (s : Shape) : Prop :=
  h.nbrs.length = s.size ∧ ∀ x, x < s.size → h.nbrs[x]? = some (s.entry x)

/-- The forest value `f` represents the well-formed shape `s`, and stores data exactly for the live
nodes. -/
structure Models {T : Type} (f : Forest T) (s : Shape) : Prop where
  valid : s.Valid
  repr : Repr f.hier s
  dataLen : f.data.length = s.size
  dataAlive : ∀ x, (f.getData x).isSome = s.alive x

/-- What the public accessors report about `f` is the shape `s`. -/
structure Describes {T : Type} (f : Forest T) (s : Shape) : Prop where
  alive : ∀ x, f.isAlive x = s.alive x
  data : ∀ x, (f.getData x).isSome = s.alive x
  parent : ∀ x, s.alive x = true → f.parentId x = .ok (s.parent x)
  next : ∀ x, s.alive x = true → f.nextSiblingId x = .ok (s.next x)
  prev : ∀ x, s.alive x = true → f.prevSiblingId x = .ok (s.prev x)
  first : ∀ x, s.alive x = true → f.firstChildId x = .ok (s.kids x).head?
  last : ∀ x, s.alive x = true → f.lastChildId x = .ok (s.kids x).getLast?
  firstLast : ∀ x, s.alive x = true → f.firstLastChildId x =
    .ok ((s.kids x).head?.bind fun a => (s.kids x).getLast?.map fun b => (a, b))
  /-- `forest.node(id)` / `forest.node_mut(id)` exist exactly for live nodes, and `Node::data` works -/
  node : ∀ x, f.node x = if s.alive x then some x else none
  nodeData : ∀ x, s.alive x = true → ∃ d, f.nodeData x = .ok d ∧ f.getData x = some d
  /-- the accessors returning `Node`s agree with those returning IDs -/
  nodeParent : ∀ x, s.alive x = true → f.viaNode (f.parentId x) = .ok (s.parent x)
  nodeNext : ∀ x, s.alive x = true → f.viaNode (f.nextSiblingId x) = .ok (s.next x)
  nodePrev : ∀ x, s.alive x = true → f.viaNode (f.prevSiblingId x) = .ok (s.prev x)
  nodeFirst : ∀ x, s.alive x = true → f.viaNode (f.firstChildId x) = .ok (s.kids x).head?
  nodeLast : ∀ x, s.alive x = true → f.viaNode (f.lastChildId x) = .ok (s.kids x).getLast?
  nodeFirstLast : ∀ x, s.alive x = true → f.firstLastChild x = f.firstLastChildId x

/-- Some well-formed shape is represented: the forest is consistent. -/
def Consistent {T : Type} (f : Forest T) : Prop := ∃ s, Models f s

/-- The public accessors of `f` contradict each other: they describe no ordered forest at all. -/
def Undescribable {T : Type} (f : Forest T) : Prop := ∀ s : Shape, s.Valid → ¬ Describes f s

end Treena
