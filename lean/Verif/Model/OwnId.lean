import Verif.Model.Builders
import Verif.Model.DebugPrint
/-!
# The public interface with a user-defined ID type

`Forest<Id, T>` stores `Id::Internal`s; the public functions convert between `Id` and `Id::Internal` where they are
called, and where they return.  The other modules model the functions behind that (with `Id::Internal` for `Id`); this one
models the conversions, wherever the code makes them.
-/
set_option autoImplicit false

namespace Treena

/-- An implementation of the trait `NodeId`, `id.rs` 12-24 (`Id::Internal` being `Nat`). -/
structure IdImpl (I : Type) where
  /-- `from_internal` -/
  wrap : Nat → I
  /-- `to_internal` -/
  unwrap : I → Nat

/-- The ID types of the crate, `id.rs` 26-37. -/
def IdImpl.internal : IdImpl Nat := ⟨fun n => n, fun n => n⟩

/-- `InsertAs<Id>`, `anchor.rs` 34-45. -/
inductive OwnInsertAs (I : Type) where
  | firstChildOf (id : I)
  | lastChildOf (id : I)
  | previousSiblingOf (id : I)
  | nextSiblingOf (id : I)

/-- `InsertAs::map(self, Id::to_internal)`, `anchor.rs` 48-59. -/
def OwnInsertAs.unwrap {I : Type} (ty : IdImpl I) : OwnInsertAs I → InsertAs
  | .firstChildOf id => .firstChildOf (ty.unwrap id)
  | .lastChildOf id => .lastChildOf (ty.unwrap id)
  | .previousSiblingOf id => .previousSiblingOf (ty.unwrap id)
  | .nextSiblingOf id => .nextSiblingOf (ty.unwrap id)

/-- `AdoptAs::insert_with_anchor`, `anchor.rs` 16-27, with an anchor of the user's type. -/
def AdoptAs.ownInsertWithAnchor {I : Type} (a : AdoptAs) (anchor : I) : OwnInsertAs I :=
  match a with
  | .firstChild => .firstChildOf anchor
  | .lastChild => .lastChildOf anchor
  | .previousSibling => .previousSiblingOf anchor
  | .nextSibling => .nextSiblingOf anchor

namespace Own
variable {I T : Type} (ty : IdImpl I)

/-! ### Forest -/

/-- `Forest::is_alive`, `forest.rs` 155-160 (`NodeIdExt::to_usize`, `id.rs` 80-85). -/
def isAlive (f : Forest T) (id : I) : Bool := f.isAlive (ty.unwrap id)

/-- `Forest::node`, `forest.rs` 183-185, `Node::new`, `node.rs` 26-33: the `Node` keeps the user's ID. -/
def node (f : Forest T) (id : I) : Option I := if !isAlive ty f id then none else some id

/-- `Forest::data`, `forest.rs` 237-241. -/
def getData (f : Forest T) (id : I) : Option T := f.getData (ty.unwrap id)

/-- A write through `Forest::data_mut`, `forest.rs` 260-264. -/
def setData (id : I) (v : T) : M (Forest T) Bool := Forest.setData (ty.unwrap id) v

/-- `Forest::create_root`, `forest.rs` 334-344. -/
def createRoot (cap : Nat) (d : T) : M (Forest T) I := do
  let newId ← Forest.createRoot cap d
  pure (ty.wrap newId)

/-- `Forest::create_insert`, `forest.rs` 358-365. -/
def createInsert (cap : Nat) (d : T) (dest : OwnInsertAs I) : M (Forest T) I := do
  let newId ← Forest.createInsertMomo cap d (dest.unwrap ty)
  pure (ty.wrap newId)

/-- `Forest::insert`, `forest.rs` 569-572. -/
def insert (node : I) (dest : OwnInsertAs I) : M (Forest T) (Except StructureError Unit) :=
  Forest.onHier (Hier.insert (ty.unwrap node) (dest.unwrap ty))

/-- `Forest::detach`, `forest.rs` 629-631. -/
def detach (node : I) : M (Forest T) Unit := Forest.onHier (Hier.detach (ty.unwrap node))

/-- `Forest::detach_single`, `forest.rs` 689-691. -/
def detachSingle (node : I) : M (Forest T) (Except StructureError Unit) :=
  Forest.onHier (Hier.detachSingle (ty.unwrap node))

/-- `Forest::remove_hooked_panic_safe`, `forest.rs` 765-812. -/
def removeHookedPanicSafe {S : Type} (hook : Forest.Hook S T) (node : I) : M (Forest T × S) Unit :=
  Forest.removeHookedPanicSafe hook (ty.unwrap node)

/-- `Forest::remove_hooked`, `forest.rs` 880-915. -/
def removeHooked {S : Type} (hook : Forest.Hook S T) (node : I) : M (Forest T × S) Unit :=
  Forest.removeHooked hook (ty.unwrap node)

/-- `Forest::remove`, `forest.rs` 976-978: `self.remove_hooked(node, drop)`. -/
def remove (node : I) : M (Forest T) Unit := Forest.remove (ty.unwrap node)

/-- The `add_mapping` callback. -/
abbrev MapHook (S I : Type) := S → I → I → Except S S

/-- `add_mapping(src, dest)`. -/
def callMap {S : Type} (hook : MapHook S I) (src dest : I) : M (Forest T × S) Unit := fun (f, s) =>
  match hook s src dest with
  | .ok s' => .ok () (f, s')
  | .error s' => .fail (.panic "add_mapping panicked") (f, s')

/-- `Forest::clone_local_tree_with_id_mapping`, `forest.rs` 1663-1739.  The loop calls `add_mapping` with wrapped IDs
(line 1729); the IDs compared in line 1733 are the user's. -/
def cloneLocalTreeWithIdMapping [DecidableEq I] {S : Type} (cap : Nat) (cl : T → Option T) (hook : MapHook S I)
    (srcId : I) : M (Forest T × S) I := do
  let d ← M.read fun p => expect (getData ty p.1 srcId) "[consistency] the node must be alive"
  let d ← M.read fun _ => expect (cl d) "T::clone panicked"
  let rootId ← Forest.onForest (createRoot ty cap d)
  callMap hook srcId rootId
  let tr ← M.read fun p => Safe.new (ty.unwrap srcId) p.1.hier
  let (_, tr) ← M.read fun p => Safe.next p.1.hier tr
  let (cur, _) ← Forest.cloneLoop cap cl Forest.localSrc (fun s a b => hook s (ty.wrap a) (ty.wrap b))
    (Forest.cloneFuel cap cap) (cap + 1) (ty.unwrap rootId) tr
  if ty.wrap cur ≠ rootId then
    M.panic "[consistency] all nodes including the root must have been closed"
  else pure rootId

/-- `Forest::clone_local_tree`, `forest.rs` 1549-1551. -/
def cloneLocalTree [DecidableEq I] (cap : Nat) (cl : T → Option T) (srcId : I) : M (Forest T) I :=
  Forest.noHook (cloneLocalTreeWithIdMapping ty cap cl (fun s _ _ => .ok s) srcId)

/-- `Forest::clone_foreign_tree_with_id_mapping`, `forest.rs` 1801-1895; the source `Node` is the forest `fsrc` and an ID. -/
def cloneForeignTreeWithIdMapping [DecidableEq I] {S : Type} (cap : Nat) (cl : T → Option T) (hook : MapHook S I)
    (fsrc : Forest T) (srcRoot : I) : M (Forest T × S) I := do
  let d ← M.read fun _ =>
    expect (getData ty fsrc srcRoot) "[validity] the node has been checked to be alive"
  let d ← M.read fun _ => expect (cl d) "T::clone panicked"
  let rootId ← Forest.onForest (createRoot ty cap d)
  callMap hook srcRoot rootId
  let tr ← M.read fun _ => Dft.withToplevel (ty.unwrap srcRoot) fsrc.hier
  let (_, tr) ← M.read fun _ => Dft.next fsrc.hier tr
  let (cur, tr) ← Forest.cloneLoop cap cl (Forest.foreignSrc fsrc) (fun s a b => hook s (ty.wrap a) (ty.wrap b))
    (Forest.cloneFuel cap fsrc.hier.nbrs.length) (cap + 1) (ty.unwrap rootId) tr
  if ty.wrap cur ≠ rootId then
    M.panic "[consistency] traversal must end with the closing of the destination root node"
  else do
    let (last, _) ← M.read fun _ => Dft.next fsrc.hier tr
    if last ≠ none then
      M.panic "[consistency] traversal must also end with the closing of the source root node"
    else pure rootId

/-- Formatting `forest.debug_print(id)`, `forest.rs` 1900-1906, `debug_print.rs` 247 and 287. -/
def debugPrint {S : Type} (put : S → Text → Except S S) (disp : T → Fmt) (f : Forest T) (id : I) :
    M S (Except Unit Unit) := fun σ =>
  match expect (node ty f id) "[precondition] the node must be alive" with
  | .error e => .fail e σ
  | .ok n =>
    match DebugPrint.inner put disp f (ty.unwrap n) (DebugPrint.Writer.new σ) with
    | .ok _ w => .ok (.ok ()) w.sink
    | .err w => .ok (.error ()) w.sink
    | .fail e w => .fail e w.sink

/-! ### Node -/

/-- `Forest::neighbors`, `forest.rs` 269-271, with the `expect` of `node.rs` 74-77. -/
def nbr (f : Forest T) (id : I) : R Neighbors := f.nbr (ty.unwrap id)

/-- `.map(Id::from_internal)`, `node.rs` 78. -/
def wrapLink (r : R (Option Nat)) : R (Option I) := r.map fun o => o.map ty.wrap

/-- `Node::parent_id`, `node.rs` 71-79. -/
def parentId (f : Forest T) (id : I) : R (Option I) := wrapLink ty (nbr ty f id >>= fun nb => nb.getParent)
/-- `Node::next_sibling_id`, `node.rs` 81-89. -/
def nextSiblingId (f : Forest T) (id : I) : R (Option I) := wrapLink ty (nbr ty f id >>= fun nb => nb.nextSibling)
/-- `Node::prev_sibling_id`, `node.rs` 91-99. -/
def prevSiblingId (f : Forest T) (id : I) : R (Option I) := wrapLink ty (nbr ty f id >>= fun nb => nb.prevSibling f.hier)
/-- `Node::first_child_id`, `node.rs` 101-109. -/
def firstChildId (f : Forest T) (id : I) : R (Option I) := wrapLink ty (nbr ty f id >>= fun nb => nb.firstChild)
/-- `Node::last_child_id`, `node.rs` 111-119. -/
def lastChildId (f : Forest T) (id : I) : R (Option I) := wrapLink ty (nbr ty f id >>= fun nb => nb.lastChild f.hier)
/-- `Node::first_last_child_id`, `node.rs` 121-129. -/
def firstLastChildId (f : Forest T) (id : I) : R (Option (I × I)) :=
  (nbr ty f id >>= fun nb => nb.firstLastChild f.hier).map fun o => o.map fun p => (ty.wrap p.1, ty.wrap p.2)

/-- `Node::new(forest, id).expect(..)`, `node.rs` 131-185, `forest/traverse.rs` throughout. -/
def nodeAt (f : Forest T) (id : I) : R I :=
  expect (node ty f id) "[consistency] the node must be the part of the tree"

/-- `Node::parent`, `next_sibling`, `prev_sibling`, `first_child`, `last_child`, `node.rs` 131-168. -/
def viaNode (f : Forest T) (r : R (Option I)) : R (Option I) :=
  match r with
  | .error e => .error e
  | .ok none => .ok none
  | .ok (some id) =>
    match nodeAt ty f id with
    | .error e => .error e
    | .ok n => .ok (some n)

/-- `Node::first_last_child`, `node.rs` 170-185. -/
def firstLastChild (f : Forest T) (id : I) : R (Option (I × I)) :=
  match firstLastChildId ty f id with
  | .error e => .error e
  | .ok none => .ok none
  | .ok (some (first, last)) =>
    match nodeAt ty f first with
    | .error e => .error e
    | .ok a =>
      match nodeAt ty f last with
      | .error e => .error e
      | .ok b => .ok (some (a, b))

/-- `Node::data`, `node.rs` 59-66. -/
def nodeData (f : Forest T) (id : I) : R T :=
  expect (getData ty f id) "[validity] the node has been checked to be alive"

/-- `NodeMut::create`, `node.rs` 964-967. -/
def nodeCreate (cap : Nat) (self : I) (d : T) (dest : AdoptAs) : M (Forest T) I :=
  createInsert ty cap d (dest.ownInsertWithAnchor self)

/-- `NodeMut::try_adopt`, `node.rs` 1062-1067. -/
def tryAdopt (self node : I) (dest : AdoptAs) : M (Forest T) (Except StructureError Unit) :=
  Forest.onHier (Hier.insert (ty.unwrap node) (dest.insertWithAnchor (ty.unwrap self)))

/-- `NodeMut::adopt`, `node.rs` 1044-1047. -/
def adopt (self node : I) (dest : AdoptAs) : M (Forest T) Unit := do
  let r ← tryAdopt ty self node dest
  match r with
  | .error _ => M.panic "[precondition] structure to be made should be valid"
  | .ok () => pure ()

/-! ### Iterators -/

/-- `self.node(id).expect(..)` and the constructor of the traverser with `node.id().to_internal()`: start of the iteration
methods of `Forest` (`forest.rs` 1017-1498, `forest/traverse.rs` 59-66, 137-145, 229-234, 276-309, 379-388, 421-429). -/
def iterNew {σ : Type} (f : Forest T) (id : I) (mk : Nat → Hier → R σ) : R σ :=
  match expect (node ty f id) "[precondition] node must be alive" with
  | .error e => .error e
  | .ok n => mk (ty.unwrap n) f.hier

/-- An item of a traverser becomes one of the iterator: the ID is wrapped, and `self.forest.node(..).expect(..)` looks
whether it is alive (`forest/traverse.rs` 95-102 and so on).  `idOf` is the ID of the item, `item` the item with an ID of the
user's type. -/
def emit {ι κ σ : Type} (f : Forest T) (idOf : ι → Nat) (item : ι → κ) (r : R (Option ι × σ)) : R (Option κ × σ) :=
  match r with
  | .error e => .error e
  | .ok (none, st) => .ok (none, st)
  | .ok (some i, st) =>
    match nodeAt ty f (ty.wrap (idOf i)) with
    | .error e => .error e
    | .ok _ => .ok (some (item i), st)

/-- `DftEvent::from_hierarchy_dft_event`, `forest/traverse.rs` 34-44. -/
def ev : Ev Nat → Ev I
  | .opn id => .opn (ty.wrap id)
  | .cls id => .cls (ty.wrap id)

/-- `Forest::depth_first_traverse`, `forest.rs` 1019-1023. -/
def depthFirstTraverse (f : Forest T) (id : I) : R Dft.St := iterNew ty f id Dft.withToplevel
/-- `DepthFirstTraverse::next`, `forest/traverse.rs` 95-102. -/
def dftNext (f : Forest T) (st : Dft.St) : R (Option (Ev I) × Dft.St) :=
  emit ty f Ev.node (ev ty) (Dft.next f.hier st)
/-- `DepthFirstTraverse::next_back`, `forest/traverse.rs` 106-113. -/
def dftNextBack (f : Forest T) (st : Dft.St) : R (Option (Ev I) × Dft.St) :=
  emit ty f Ev.node (ev ty) (Dft.nextBack f.hier st)

/-- `Forest::shallow_depth_first_traverse`, `forest.rs` 1110-1118. -/
def shallowDepthFirstTraverse (um : Nat) (f : Forest T) (id : I) (maxDepth : Option Nat) : R Shallow.St :=
  iterNew ty f id fun n h => Shallow.withToplevelAndMaxDepth um n h maxDepth
/-- `ShallowDepthFirstTraverse::next`, `forest/traverse.rs` 187-197. -/
def shallowNext (f : Forest T) (st : Shallow.St) : R (Option (Ev I × Nat) × Shallow.St) :=
  emit ty f (fun i => i.1.node) (fun i => (ev ty i.1, i.2)) (Shallow.next f.hier st)
/-- `ShallowDepthFirstTraverse::next_back`, `forest/traverse.rs` 201-211. -/
def shallowNextBack (f : Forest T) (st : Shallow.St) : R (Option (Ev I × Nat) × Shallow.St) :=
  emit ty f (fun i => i.1.node) (fun i => (ev ty i.1, i.2)) (Shallow.nextBack f.hier st)

/-- `Forest::breadth_first_traverse`, `forest.rs` 1188-1192. -/
def breadthFirstTraverse (um : Nat) (f : Forest T) (id : I) : R Bft.St := iterNew ty f id (Bft.withToplevel um)
/-- `BreadthFirstTraverse::next`, `forest/traverse.rs` 393-401. -/
def bftNext (um : Nat) (f : Forest T) (st : Bft.St) : R (Option (I × Nat) × Bft.St) :=
  emit ty f (fun i => i.1) (fun i => (ty.wrap i.1, i.2)) (Bft.next um f.hier st)

/-- `Forest::allocating_breadth_first_traverse`, `forest.rs` 1259-1266. -/
def allocatingBreadthFirstTraverse (f : Forest T) (id : I) : R ABft.St := iterNew ty f id ABft.withToplevel
/-- `AllocatingBreadthFirstTraverse::next`, `forest/traverse.rs` 447-455. -/
def abftNext (f : Forest T) (st : ABft.St) : R (Option (I × Nat) × ABft.St) :=
  emit ty f (fun i => i.1) (fun i => (ty.wrap i.1, i.2)) (ABft.next f.hier st)

/-- `Forest::ancestors_or_self`, `forest.rs` 1322-1326. -/
def ancestorsOrSelf (f : Forest T) (id : I) : R Ancestors.St := iterNew ty f id Ancestors.withStart
/-- `Ancestors::next`, `forest/traverse.rs` 251-258. -/
def ancestorsNext (f : Forest T) (st : Ancestors.St) : R (Option I × Ancestors.St) :=
  emit ty f (fun i => i) ty.wrap (Ancestors.next f.hier st)
/-- `Forest::ancestors`, `forest.rs` 1294-1298, `node.rs` 473-475. -/
def ancestors (f : Forest T) (id : I) : R Ancestors.St :=
  Forest.skipped (ancestorsNext ty f) (ancestorsOrSelf ty f id)

/-- `Siblings::next`, `forest/traverse.rs` 338-345. -/
def siblingsNext (f : Forest T) (st : Siblings.St) : R (Option I × Siblings.St) :=
  emit ty f (fun i => i) ty.wrap (Siblings.next f.hier st)
/-- `Siblings::next_back`, `forest/traverse.rs` 349-356. -/
def siblingsNextBack (f : Forest T) (st : Siblings.St) : R (Option I × Siblings.St) :=
  emit ty f (fun i => i) ty.wrap (Siblings.nextBack f.hier st)

/-- `Forest::children`, `forest.rs` 1352-1356. -/
def children (f : Forest T) (id : I) : R Siblings.St := iterNew ty f id Siblings.withParent
/-- `Forest::following_siblings_or_self`, `forest.rs` 1410-1414. -/
def followingSiblingsOrSelf (f : Forest T) (id : I) : R Siblings.St := iterNew ty f id Siblings.withFirstSibling
/-- `Forest::following_siblings`, `forest.rs` 1381-1385. -/
def followingSiblings (f : Forest T) (id : I) : R Siblings.St :=
  Forest.skipped (siblingsNext ty f) (followingSiblingsOrSelf ty f id)
/-- `Forest::preceding_siblings_or_self`, `forest.rs` 1494-1498. -/
def precedingSiblingsOrSelf (f : Forest T) (id : I) : R Siblings.St := iterNew ty f id Siblings.withLastSibling
/-- `Forest::preceding_siblings`, `forest.rs` 1452-1456. -/
def precedingSiblings (f : Forest T) (id : I) : R Siblings.St :=
  Forest.skipped (siblingsNextBack ty f) (precedingSiblingsOrSelf ty f id)

/-! ### Builders -/

/-- `struct NestTreeBuilder`, `nest_builder.rs` 46-53. -/
structure Nest (I T : Type) where
  forest : Forest T
  root : I
  current : Option I

namespace Nest

/-- Run an operation on `self.forest`. -/
def onForest {α : Type} (m : M (Forest T) α) : M (Nest I T) α :=
  M.zoom (fun b => b.forest) (fun f b => { b with forest := f }) m

/-- `NestTreeBuilder::new`, `nest_builder.rs` 57-64. -/
def new (cap : Nat) (d : T) (f : Forest T) : Res (Forest T) (Nest I T) :=
  match createRoot ty cap d f with
  | .ok root f' => .ok { forest := f', root := root, current := none } f'
  | .fail e f' => .fail e f'

/-- The `match self.current` of `add_child`, `nest_builder.rs` 69-80. -/
def place (newId : I) : M (Nest I T) Unit := fun b =>
  match b.current with
  | some prevSib =>
    (do
      let r ← onForest (insert ty newId (.nextSiblingOf prevSib))
      Treena.Nest.expectOk r Treena.Nest.addMsg : M (Nest I T) Unit) b
  | none =>
    (do
      let r ← onForest (insert ty newId (.firstChildOf b.root))
      Treena.Nest.expectOk r Treena.Nest.addMsg : M (Nest I T) Unit) b

/-- `NestTreeBuilder::add_child`, `nest_builder.rs` 67-82. -/
def addChild (cap : Nat) (d : T) : M (Nest I T) Unit := do
  let newId ← onForest (createRoot ty cap d)
  place ty newId
  M.modify fun b => { b with current := some newId }

/-- `NestTreeBuilder::create_tree`, `nest_builder.rs` 85-101. -/
def createTree (cap : Nat) (d : T) (f : M (Nest I T) Unit) : M (Nest I T) Unit := do
  addChild ty cap d
  let newRoot ← M.read fun b => expect b.current "[consistency] `add_child` makes `current` `Some`"
  M.modify fun b => { b with current := none }
  let oldRoot ← M.read fun b => .ok b.root
  M.modify fun b => { b with root := newRoot }
  f
  M.modify fun b => { b with current := some newRoot }
  M.modify fun b => { b with root := oldRoot }

mutual
/-- One call of user code on a builder. -/
def exec (cap : Nat) : NestCall T → M (Nest I T) Unit
  | .addChild d => addChild ty cap d
  | .createTree d cs => createTree ty cap d (execL cap cs)
  | .boom => M.panic "user code panicked"
/-- Calls one after the other. -/
def execL (cap : Nat) : List (NestCall T) → M (Nest I T) Unit
  | [] => pure ()
  | c :: cs => do
    exec cap c
    execL cap cs
end

end Nest

/-- `let mut b = NestTreeBuilder::new(forest, data); <calls>; b.root()`. -/
def nestBuild (cap : Nat) (d : T) (cs : List (NestCall T)) : M (Forest T) I := fun f =>
  match Nest.new ty cap d f with
  | .fail e f' => .fail e f'
  | .ok b _ =>
    match Nest.execL ty cap cs b with
    | .ok () b' => .ok b'.root b'.forest
    | .fail e b' => .fail e b'.forest

/-- `struct ChainTreeBuilder`, `chain_builder.rs` 150-158. -/
structure Chain (I T : Type) where
  forest : Forest T
  root : I
  current : I

namespace Chain

/-- Access to `self.forest`. -/
def onForest {α : Type} (m : M (Forest T) α) : M (Chain I T) α :=
  M.zoom (fun b => b.forest) (fun f b => { b with forest := f }) m

/-- `ChainTreeBuilder::new`, `chain_builder.rs` 162-169. -/
def new (cap : Nat) (d : T) (f : Forest T) : Res (Forest T) (Chain I T) :=
  match createRoot ty cap d f with
  | .ok root f' => .ok { forest := f', root := root, current := root } f'
  | .fail e f' => .fail e f'

/-- `ChainTreeBuilder::child`, `chain_builder.rs` 199-206. -/
def child (cap : Nat) (d : T) : M (Chain I T) Unit := fun b =>
  (do
    let new ← onForest (createInsert ty cap d (.lastChildOf b.current))
    M.modify fun b => { b with current := new } : M (Chain I T) Unit) b

/-- `ChainTreeBuilder::sibling`, `chain_builder.rs` 208-215. -/
def sibling (cap : Nat) (d : T) : M (Chain I T) Unit := fun b =>
  (do
    let new ← onForest (createInsert ty cap d (.nextSiblingOf b.current))
    M.modify fun b => { b with current := new } : M (Chain I T) Unit) b

/-- `self.forest.node(self.current).expect(..).parent_id()`, `chain_builder.rs` 219-223, 234-238. -/
def parentOfCurrent (b : Chain I T) : R (Option I) :=
  match expect (node ty b.forest b.current) "[consistency] nodes in the tree must be alive" with
  | .error e => .error e
  | .ok n => parentId ty b.forest n

/-- `ChainTreeBuilder::try_parent`, `chain_builder.rs` 217-226. -/
def tryParent : M (Chain I T) Bool := do
  let p ← M.read (parentOfCurrent ty)
  match p with
  | none => pure false
  | some parent => do
    M.modify fun b => { b with current := parent }
    pure true

/-- `ChainTreeBuilder::parent`, `chain_builder.rs` 228-242. -/
def parent : M (Chain I T) Unit := do
  let p ← M.read (parentOfCurrent ty)
  let parent ← M.read fun _ => expect p "[precondition] the current node should not be the root"
  M.modify fun b => { b with current := parent }

/-- One call. -/
def exec (cap : Nat) : ChainCall T → M (Chain I T) Unit
  | .child d => child ty cap d
  | .sibling d => sibling ty cap d
  | .parent => parent ty
  | .tryParent => do let _ ← tryParent ty

/-- Calls one after the other. -/
def execL (cap : Nat) : List (ChainCall T) → M (Chain I T) Unit
  | [] => pure ()
  | c :: cs => do
    exec ty cap c
    execL cap cs

end Chain

/-- `let mut b = ChainTreeBuilder::new(forest, data); <calls>; b.root_id()`. -/
def chainBuild (cap : Nat) (d : T) (cs : List (ChainCall T)) : M (Forest T) I := fun f =>
  match Chain.new ty cap d f with
  | .fail e f' => .fail e f'
  | .ok b _ =>
    match Chain.execL ty cap cs b with
    | .ok () b' => .ok b'.root b'.forest
    | .fail e b' => .fail e b'.forest

end Own
end Treena
