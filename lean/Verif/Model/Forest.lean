import Verif.Model.Traverse
/-!
# Model of `src/dynamic/forest.rs`

`Id::from_internal` / `to_internal` (`src/dynamic/id.rs` 13-36) are injective wrappings of the
internal ID and are modelled as the identity on `Nat`.
-/

set_option autoImplicit false

namespace Treena

/-- `struct Forest`, `forest.rs` 116-128; `Forest::new` / `Default` (144-148, 1909-1916) is `⟨⟨[]⟩, []⟩`. -/
structure Forest (T : Type) where
  hier : Hier
  data : List (Option T)
deriving DecidableEq, Repr

namespace Forest
variable {T : Type}

/-- `Forest::new`, `forest.rs` 144-148, 1909-1916. -/
def new : Forest T := { hier := { nbrs := [] }, data := [] }

/-- `Forest::is_alive`, `forest.rs` 153-159. -/
def isAlive (f : Forest T) (id : Nat) : Bool :=
  match f.data[id]? with
  | some entry => entry.isSome
  | none => false

/-- `Forest::node`, `forest.rs` 183-185, and `Node::new`, `forest/node.rs` 26-33.
A `Node` is the pair of the forest and the ID; the model keeps the ID.  So `Node::forest`, `Node::hierarchy` and
`Node::id` (`node.rs` 36-57), `Clone` and `Copy` of `Node` (`node.rs` 668-677) and `NodeMut::forest`, `NodeMut::id`
(`node.rs` 721-735) are identities here.
Also `Forest::node_mut` / `NodeMut::new` (`forest.rs` 219-221, `node.rs` 698-705). -/
def node (f : Forest T) (id : Nat) : Option Nat := if !f.isAlive id then none else some id

/-- `Forest::data`, `forest.rs` 237-241. -/
def getData (f : Forest T) (id : Nat) : Option T := (f.data[id]?).bind fun entry => entry

/-- A write through the reference returned by `Forest::data_mut`, `forest.rs` 260-264:
`if let Some(r) = forest.data_mut(id) { *r = v }`; the result tells whether there was a reference. -/
def setData (id : Nat) (v : T) : M (Forest T) Bool := fun f =>
  match f.getData id with
  | some _ => .ok true { f with data := f.data.set id (some v) }
  | none => .ok false f

/-- Run an operation on `self.hierarchy`. -/
def onHier {α : Type} (m : M Hier α) : M (Forest T) α :=
  M.zoom (fun f => f.hier) (fun h f => { f with hier := h }) m

/-- `self.data.push(Some(data))`. -/
def pushData (d : T) : M (Forest T) Unit :=
  M.modify fun f => { f with data := f.data ++ [some d] }

/-- `Forest::create_root`, `forest.rs` 334-344. -/
def createRoot (cap : Nat) (d : T) : M (Forest T) Nat := do
  let newId ← onHier (Hier.createRoot cap)
  let len ← M.read fun f => .ok f.data.length
  if len ≠ newId then
    M.panic "[consistency] node ID must be able to be used as an index for the vec"
  else do
    pushData d
    pure newId

/-- `create_insert_momo`, `forest.rs` 1926-1949. -/
def createInsertMomo (cap : Nat) (d : T) (dest : InsertAs) : M (Forest T) Nat := do
  let valid ← M.read fun f => .ok (f.hier.isValid dest.toAnchor)
  if !valid then M.panic "[precondition] the anchor must be valid for this forest"
  else do
    let newId ← onHier (Hier.createRoot cap)
    pushData d
    let r ← onHier (Hier.insert newId dest)
    match r with
    | .error _ => M.panic "[precondition] newly created node is independent from the destination"
    | .ok () => pure newId

/-- `Forest::create_insert`, `forest.rs` 358-365. -/
def createInsert (cap : Nat) (d : T) (dest : InsertAs) : M (Forest T) Nat :=
  createInsertMomo cap d dest

/-- `Forest::insert`, `forest.rs` 569-572. -/
def insert (node : Nat) (dest : InsertAs) : M (Forest T) (Except StructureError Unit) :=
  onHier (Hier.insert node dest)

/-- `Forest::detach`, `forest.rs` 629-631. -/
def detach (node : Nat) : M (Forest T) Unit := onHier (Hier.detach node)

/-- `Forest::detach_single`, `forest.rs` 689-691. -/
def detachSingle (node : Nat) : M (Forest T) (Except StructureError Unit) :=
  onHier (Hier.detachSingle node)

/-! ### Removal

The hook `F: FnMut(T)` is a function on its captured state `S`; `.error s` means that it panicked
leaving its captured state `s`.  It cannot access the forest, which is mutably borrowed. -/

/-- A removal hook. -/
abbrev Hook (S T : Type) := S → T → Except S S

/-- Run on the forest component. -/
def onForest {S α : Type} (m : M (Forest T) α) : M (Forest T × S) α :=
  M.zoom (fun p => p.1) (fun f p => (f, p.2)) m

/-- `data[id].take().expect(..)`, `forest.rs` 804-806 and 906-908. -/
def takeData (id : Nat) : M (Forest T) T := fun f =>
  match f.data[id]? with
  | none => .fail (.panic "index out of bounds") f
  | some none => .fail (.panic "[consistency] the node must have an associated data") f
  | some (some d) => .ok d { f with data := f.data.set id none }

/-- `f(elem)`. -/
def callHook {S : Type} (hook : Hook S T) (d : T) : M (Forest T × S) Unit := fun (f, s) =>
  match hook s d with
  | .ok s' => .ok () (f, s')
  | .error s' => .fail (.panic "hook panicked") (f, s')

/-- Loop body of `remove_hooked_panic_safe` for `Close(id)`, `forest.rs` 786-807. -/
def closePanicSafe {S : Type} (hook : Hook S T) (id : Nat) : M (Forest T × S) Unit := do
  let d ← onForest (do
    -- debug_assert!, lines 787-794
    let nb ← onHier (Hier.nbrOf id "[consistency] the current node must be alive here")
    let fc ← M.read fun _ => nb.firstChild
    if fc.isSome then M.panic "[consistency] the node must be the leaf"
    else do
      detach id
      -- debug_assert!, lines 799-802
      let nb ← onHier (Hier.nbrOf id "[consistency] the current node must be alive here")
      let alone ← M.read fun _ => nb.isAlone
      if !alone then M.panic "[consistency] the detached leaf node must be alone"
      else do
        onHier (Hier.makeRemoved id "[consistency] the current node must be alive here")
        takeData id)
  callHook hook d

/-- Loop body of `remove_hooked` for `Close(id)`, `forest.rs` 901-909. -/
def closeForce {S : Type} (hook : Hook S T) (id : Nat) : M (Forest T × S) Unit := do
  let d ← onForest (do
    onHier (Hier.forceMakeRemoved id "[consistency] the current node must be alive here")
    takeData id)
  callHook hook d

/-- The `while let Some(ev) = traverser.next(hierarchy)` loops of `forest.rs` 780-808 and 895-910,
`close` being the handling of `Close(id)`. -/
def removeLoop {S : Type} (close : Nat → M (Forest T × S) Unit) :
    Nat → Safe.St → M (Forest T × S) Unit
  | 0, _ => M.throw .diverge
  | fuel + 1, tr => do
    let (ev, tr') ← M.read fun p => Safe.next p.1.hier tr
    match ev with
    | none => pure ()
    | some (.opn _) => removeLoop close fuel tr'
    | some (.cls id) => do
      close id
      removeLoop close fuel tr'

/-- Fuel for the removal loops: between two `Close` events, each of which removes a node, there are at most as many
`Open` events as nodes unless the loop is endless; exhausted fuel means an endless loop (`removeLoop_fuel`). -/
def removeFuel (f : Forest T) : Nat := (f.hier.nbrs.length + 1) * (f.hier.nbrs.length + 2)

/-- Common part of the two `inner` functions, `forest.rs` 774-779 and 889-894, then the loop. -/
def removeWith {S : Type} (close : Nat → M (Forest T × S) Unit) (node : Nat) :
    M (Forest T × S) Unit := do
  let alive ← M.read fun p => .ok (p.1.hier.isAlive node)
  if !alive then pure ()
  else do
    onForest (detach node)
    let tr ← M.read fun p => Safe.new node p.1.hier
    let fuel ← M.read fun p => .ok (removeFuel p.1)
    removeLoop close fuel tr

/-- `Forest::remove_hooked_panic_safe`, `forest.rs` 765-812. -/
def removeHookedPanicSafe {S : Type} (hook : Hook S T) (node : Nat) : M (Forest T × S) Unit :=
  removeWith (closePanicSafe hook) node

/-- `Forest::remove_hooked`, `forest.rs` 880-915. -/
def removeHooked {S : Type} (hook : Hook S T) (node : Nat) : M (Forest T × S) Unit :=
  removeWith (closeForce hook) node

/-- `Forest::remove`, `forest.rs` 976-978: the hook is `drop` (assumed not to panic). -/
def remove (node : Nat) : M (Forest T) Unit := fun f =>
  match removeHooked (S := Unit) (fun s _ => .ok s) node (f, ()) with
  | .ok _ (f', _) => .ok () f'
  | .fail e (f', _) => .fail e f'

/-! ### Cloning

`T: Clone` is an arbitrary function `cl : T → Option T`, `none` meaning that `T::clone` panics
(simplification: the result depends on the value cloned only).  The callback `add_mapping: FnMut(Id, Id)` is a
stateful, possibly panicking function. -/

/-- The `add_mapping` callback. -/
abbrev MapHook (S : Type) := S → Nat → Nat → Except S S

/-- `add_mapping(src, dest)`. -/
def callMap {S : Type} (hook : MapHook S) (src dest : Nat) : M (Forest T × S) Unit := fun (f, s) =>
  match hook s src dest with
  | .ok s' => .ok () (f, s')
  | .error s' => .fail (.panic "add_mapping panicked") (f, s')

/-- `data.get(src_id).cloned().expect(..).expect(..)`, `forest.rs` 1682-1686 and 1826-1830. -/
def clonedData (cl : T → Option T) (data : List (Option T)) (src : Nat) : R T :=
  match expect (data[src]?) "[consistency] the node being traversed must be alive" with
  | .error e => .error e
  | .ok o =>
    match expect o "[consistency] the node being traversed must be alive" with
    | .error e => .error e
    | .ok d => expect (cl d) "T::clone panicked"

/-- Where `clone_next_node` reads the next event from: the source traverser.  For
`clone_local_tree*` it is a `SafeModeDepthFirstTraverser` over the forest being modified, for
`clone_foreign_tree*` a `DepthFirstTraverser` over the (unchanged) source forest. -/
structure CloneSrc (T τ : Type) where
  next : Forest T → τ → R (Option (Ev Nat) × τ)
  data : Forest T → List (Option T)

/-- `clone_next_node` of `clone_local_tree_with_id_mapping` (`forest.rs` 1673-1708) and of
`clone_foreign_tree_with_id_mapping` (`forest.rs` 1815-1858).  Returns the source ID (if any), the
new `current_dest` and the new traverser state. -/
def cloneNextNode {τ : Type} (cap : Nat) (cl : T → Option T) (src : CloneSrc T τ) :
    Nat → Nat → τ → M (Forest T) (Option Nat × Nat × τ)
  | 0, _, _ => M.throw .diverge
  | fuel + 1, cur, tr => do
    let (ev, tr') ← M.read fun f => src.next f tr
    match ev with
    | none => M.panic "[consistency] traversal must end with the closing of the root node"
    | some (.opn srcId) => do
      let d ← M.read fun f => clonedData cl (src.data f) srcId
      let cur' ← createInsertMomo cap d (.lastChildOf cur)
      pure (some srcId, cur', tr')
    | some (.cls _) => do
      let nb ← onHier (Hier.nbrOf cur "[consistency] the node being created must be alive")
      let p ← M.read fun _ => nb.getParent
      match p with
      | some id => cloneNextNode cap cl src fuel id tr'
      | none => pure (none, cur, tr')

/-- `while let Some(src_id) = clone_next_node(..) { add_mapping(src_id, current_dest) }`,
`forest.rs` 1723-1730 and 1872-1881. Returns the final `current_dest` and traverser. -/
def cloneLoop {S τ : Type} (cap : Nat) (cl : T → Option T) (src : CloneSrc T τ) (hook : MapHook S)
    (innerFuel : Nat) : Nat → Nat → τ → M (Forest T × S) (Nat × τ)
  | 0, _, _ => M.throw .diverge
  | fuel + 1, cur, tr => do
    let (o, cur', tr') ← onForest (cloneNextNode cap cl src innerFuel cur tr)
    match o with
    | none => pure (cur', tr')
    | some srcId => do
      callMap hook srcId cur'
      cloneLoop cap cl src hook innerFuel fuel cur' tr'

/-- Fuel for the inner loop of the clone functions, `n` being a bound for the number of records of the source: more than
the number of pairs of a destination and a source node, so that exhausted fuel means an endless loop
(`cloneNextNode_fuel`).  The outer loop issues an ID in every round but the last, hence it has `cap + 1` rounds at most
(`cloneLoop_fuel`). -/
def cloneFuel (cap n : Nat) : Nat := (cap + 2) * (n + 2)

/-- Source of `clone_local_tree_with_id_mapping`. -/
def localSrc : CloneSrc T Safe.St :=
  { next := fun f tr => Safe.next f.hier tr, data := fun f => f.data }

/-- Source of `clone_foreign_tree_with_id_mapping`. -/
def foreignSrc (fsrc : Forest T) : CloneSrc T Dft.St :=
  { next := fun _ tr => Dft.next fsrc.hier tr, data := fun _ => fsrc.data }

/-- `Forest::clone_local_tree_with_id_mapping`, `forest.rs` 1663-1739. -/
def cloneLocalTreeWithIdMapping {S : Type} (cap : Nat) (cl : T → Option T) (hook : MapHook S)
    (srcId : Nat) : M (Forest T × S) Nat := do
  let d ← M.read fun p => expect (p.1.getData srcId) "[consistency] the node must be alive"
  let d ← M.read fun _ => expect (cl d) "T::clone panicked"
  let rootId ← onForest (createRoot cap d)
  callMap hook srcId rootId
  let tr ← M.read fun p => Safe.new srcId p.1.hier
  let (_, tr) ← M.read fun p => Safe.next p.1.hier tr
  let (cur, _) ← cloneLoop cap cl localSrc hook (cloneFuel cap cap) (cap + 1) rootId tr
  if cur ≠ rootId then
    M.panic "[consistency] all nodes including the root must have been closed"
  else pure rootId

/-- `Forest::clone_foreign_tree_with_id_mapping`, `forest.rs` 1801-1895; the source `Node` is the
forest `fsrc` and the live ID `srcRoot` (`Node::data`, `node.rs` 62-66, for line 1860). -/
def cloneForeignTreeWithIdMapping {S : Type} (cap : Nat) (cl : T → Option T) (hook : MapHook S)
    (fsrc : Forest T) (srcRoot : Nat) : M (Forest T × S) Nat := do
  let d ← M.read fun _ =>
    expect (fsrc.getData srcRoot) "[validity] the node has been checked to be alive"
  let d ← M.read fun _ => expect (cl d) "T::clone panicked"
  let rootId ← onForest (createRoot cap d)
  callMap hook srcRoot rootId
  let tr ← M.read fun _ => Dft.withToplevel srcRoot fsrc.hier
  let (_, tr) ← M.read fun _ => Dft.next fsrc.hier tr
  let (cur, tr) ← cloneLoop cap cl (foreignSrc fsrc) hook (cloneFuel cap fsrc.hier.nbrs.length) (cap + 1) rootId tr
  if cur ≠ rootId then
    M.panic "[consistency] traversal must end with the closing of the destination root node"
  else do
    let (last, _) ← M.read fun _ => Dft.next fsrc.hier tr
    if last ≠ none then
      M.panic "[consistency] traversal must also end with the closing of the source root node"
    else pure rootId

/-- Forget the state of a callback. -/
def noHook {α : Type} (m : M (Forest T × Unit) α) : M (Forest T) α := fun f =>
  match m (f, ()) with
  | .ok a (f', _) => .ok a f'
  | .fail e (f', _) => .fail e f'

/-- `Forest::clone_local_tree`, `forest.rs` 1549-1551. -/
def cloneLocalTree (cap : Nat) (cl : T → Option T) (srcId : Nat) : M (Forest T) Nat :=
  noHook (cloneLocalTreeWithIdMapping cap cl (fun s _ _ => .ok s) srcId)

/-- `Forest::clone_foreign_tree`, `forest.rs` 1604-1606. -/
def cloneForeignTree (cap : Nat) (cl : T → Option T) (fsrc : Forest T) (srcRoot : Nat) :
    M (Forest T) Nat :=
  noHook (cloneForeignTreeWithIdMapping cap cl (fun s _ _ => .ok s) fsrc srcRoot)

end Forest

/-! ### `Node`: neighbours access, `src/dynamic/forest/node.rs` 68-186

The `Node` versions (`parent()`, ...; 131-185) additionally wrap the ID with
`Node::new(..).expect(..)`, modelled by `Forest.nodeAt`. -/
namespace Forest
variable {T : Type}

/-- `self.forest.neighbors(self.id).expect(..)`, `node.rs` e.g. 74-77; `Forest::neighbors`,
`forest.rs` 269-271. -/
def nbr (f : Forest T) (id : Nat) : R Neighbors :=
  expect (f.hier.neighbors id) "[validity] the node has been checked to be alive"

/-- `Node::parent_id`, `node.rs` 71-79. -/
def parentId (f : Forest T) (id : Nat) : R (Option Nat) :=
  match f.nbr id with
  | .error e => .error e
  | .ok nb => nb.getParent
/-- `Node::next_sibling_id`, `node.rs` 81-89. -/
def nextSiblingId (f : Forest T) (id : Nat) : R (Option Nat) :=
  match f.nbr id with
  | .error e => .error e
  | .ok nb => nb.nextSibling
/-- `Node::prev_sibling_id`, `node.rs` 91-99. -/
def prevSiblingId (f : Forest T) (id : Nat) : R (Option Nat) :=
  match f.nbr id with
  | .error e => .error e
  | .ok nb => nb.prevSibling f.hier
/-- `Node::first_child_id`, `node.rs` 101-109. -/
def firstChildId (f : Forest T) (id : Nat) : R (Option Nat) :=
  match f.nbr id with
  | .error e => .error e
  | .ok nb => nb.firstChild
/-- `Node::last_child_id`, `node.rs` 111-119. -/
def lastChildId (f : Forest T) (id : Nat) : R (Option Nat) :=
  match f.nbr id with
  | .error e => .error e
  | .ok nb => nb.lastChild f.hier
/-- `Node::first_last_child_id`, `node.rs` 121-129. -/
def firstLastChildId (f : Forest T) (id : Nat) : R (Option (Nat × Nat)) :=
  match f.nbr id with
  | .error e => .error e
  | .ok nb => nb.firstLastChild f.hier

/-- `Node::new(forest, id).expect("[consistency] ...")`, used by every accessor and iterator that
returns `Node`s (`node.rs` 131-185, `forest/traverse.rs` throughout). -/
def nodeAt (f : Forest T) (id : Nat) : R Nat :=
  expect (f.node id) "[consistency] the node must be the part of the tree"

/-- `Node::parent`, `node.rs` 131-136, `next_sibling` 138-144, `prev_sibling` 146-152,
`first_child` 154-160, `last_child` 162-168: the ID accessor followed by `nodeAt`. -/
def viaNode (f : Forest T) (r : R (Option Nat)) : R (Option Nat) :=
  match r with
  | .error e => .error e
  | .ok none => .ok none
  | .ok (some id) =>
    match f.nodeAt id with
    | .error e => .error e
    | .ok n => .ok (some n)

/-- `Node::first_last_child`, `node.rs` 170-185: as `first_last_child_id`, both IDs wrapped. -/
def firstLastChild (f : Forest T) (id : Nat) : R (Option (Nat × Nat)) :=
  match f.firstLastChildId id with
  | .error e => .error e
  | .ok none => .ok none
  | .ok (some (first, last)) =>
    match f.nodeAt first with
    | .error e => .error e
    | .ok a =>
      match f.nodeAt last with
      | .error e => .error e
      | .ok b => .ok (some (a, b))

/-- `Node::data`, `node.rs` 59-66. -/
def nodeData (f : Forest T) (id : Nat) : R T :=
  expect (f.getData id) "[validity] the node has been checked to be alive"

/-- The public iterators of `src/dynamic/forest/traverse.rs` turn the ID of each emitted item into
a `Node` with `self.forest.node(..).expect(..)` (e.g. lines 95-102). -/
def emit {ι σ : Type} (f : Forest T) (idOf : ι → Nat) (r : R (Option ι × σ)) : R (Option ι × σ) :=
  match r with
  | .error e => .error e
  | .ok (none, st) => .ok (none, st)
  | .ok (some i, st) =>
    match f.nodeAt (idOf i) with
    | .error e => .error e
    | .ok _ => .ok (some i, st)

/-- The `peek` / `peek_back` methods of the public iterators: the traverser's peek, then
`self.forest.node(..).expect(..)` (`forest/traverse.rs` 71-89, 157-184, 238-245, 314-332, 433-441). -/
def emitPeek {ι : Type} (f : Forest T) (idOf : ι → Nat) (r : R (Option ι)) : R (Option ι) :=
  match r with
  | .error e => .error e
  | .ok none => .ok none
  | .ok (some i) =>
    match f.nodeAt (idOf i) with
    | .error e => .error e
    | .ok _ => .ok (some i)

/-- `self.node(node).expect("[precondition] node must be alive")`, start of every iteration method of
`Forest` (`forest.rs` 1017-1498). -/
def nodeOrPanic (f : Forest T) (id : Nat) : R Nat :=
  expect (f.node id) "[precondition] node must be alive"

/-- Build an iterator with a traverser constructor, after the liveness check. -/
def iterNew {σ : Type} (f : Forest T) (id : Nat) (mk : Nat → Hier → R σ) : R σ :=
  match f.nodeOrPanic id with
  | .error e => .error e
  | .ok n => mk n f.hier

/-- `Forest::depth_first_traverse`, `forest.rs` 1019-1023, `node.rs` 223-225. -/
def depthFirstTraverse (f : Forest T) (id : Nat) : R Dft.St := f.iterNew id Dft.withToplevel
/-- `DepthFirstTraverse::next`, `forest/traverse.rs` 95-102. -/
def dftNext (f : Forest T) (st : Dft.St) : R (Option (Ev Nat) × Dft.St) :=
  f.emit Ev.node (Dft.next f.hier st)
/-- `DepthFirstTraverse::next_back`, `forest/traverse.rs` 106-113. -/
def dftNextBack (f : Forest T) (st : Dft.St) : R (Option (Ev Nat) × Dft.St) :=
  f.emit Ev.node (Dft.nextBack f.hier st)
/-- `DepthFirstTraverse::peek`, `forest/traverse.rs` 69-78. -/
def dftPeek (f : Forest T) (st : Dft.St) : R (Option (Ev Nat)) :=
  f.emitPeek Ev.node (.ok (Dft.peek st))
/-- `DepthFirstTraverse::peek_back`, `forest/traverse.rs` 80-89. -/
def dftPeekBack (f : Forest T) (st : Dft.St) : R (Option (Ev Nat)) :=
  f.emitPeek Ev.node (.ok (Dft.peekBack st))

/-- `Forest::shallow_depth_first_traverse`, `forest.rs` 1110-1118, `node.rs` 310-315. -/
def shallowDepthFirstTraverse (um : Nat) (f : Forest T) (id : Nat) (maxDepth : Option Nat) :
    R Shallow.St :=
  f.iterNew id fun n h => Shallow.withToplevelAndMaxDepth um n h maxDepth
/-- `ShallowDepthFirstTraverse::max_depth`, `forest/traverse.rs` 149-153,
`hierarchy/traverse.rs` 478-483. -/
def shallowMaxDepth (st : Shallow.St) : Option Nat := st.maxDepth
/-- `ShallowDepthFirstTraverse::next`, `forest/traverse.rs` 187-197. -/
def shallowNext (f : Forest T) (st : Shallow.St) : R (Option (Ev Nat × Nat) × Shallow.St) :=
  f.emit (fun i => i.1.node) (Shallow.next f.hier st)
/-- `ShallowDepthFirstTraverse::next_back`, `forest/traverse.rs` 201-211. -/
def shallowNextBack (f : Forest T) (st : Shallow.St) : R (Option (Ev Nat × Nat) × Shallow.St) :=
  f.emit (fun i => i.1.node) (Shallow.nextBack f.hier st)
/-- `ShallowDepthFirstTraverse::peek`, `forest/traverse.rs` 155-167. -/
def shallowPeek (f : Forest T) (st : Shallow.St) : R (Option (Ev Nat × Nat)) :=
  f.emitPeek (fun i => i.1.node) (.ok (Shallow.peek st))
/-- `ShallowDepthFirstTraverse::peek_back`, `forest/traverse.rs` 169-181. -/
def shallowPeekBack (f : Forest T) (st : Shallow.St) : R (Option (Ev Nat × Nat)) :=
  f.emitPeek (fun i => i.1.node) (.ok (Shallow.peekBack st))

/-- `Forest::breadth_first_traverse`, `forest.rs` 1188-1192, `node.rs` 382-384. -/
def breadthFirstTraverse (um : Nat) (f : Forest T) (id : Nat) : R Bft.St :=
  f.iterNew id (Bft.withToplevel um)
/-- `BreadthFirstTraverse::next`, `forest/traverse.rs` 393-401. -/
def bftNext (um : Nat) (f : Forest T) (st : Bft.St) : R (Option (Nat × Nat) × Bft.St) :=
  f.emit (fun i => i.1) (Bft.next um f.hier st)

/-- `Forest::allocating_breadth_first_traverse`, `forest.rs` 1259-1266, `node.rs` 449-451. -/
def allocatingBreadthFirstTraverse (f : Forest T) (id : Nat) : R ABft.St :=
  f.iterNew id ABft.withToplevel
/-- `AllocatingBreadthFirstTraverse::next`, `forest/traverse.rs` 447-455. -/
def abftNext (f : Forest T) (st : ABft.St) : R (Option (Nat × Nat) × ABft.St) :=
  f.emit (fun i => i.1) (ABft.next f.hier st)
/-- `AllocatingBreadthFirstTraverse::peek`, `forest/traverse.rs` 431-441. -/
def abftPeek (f : Forest T) (st : ABft.St) : R (Option (Nat × Nat)) :=
  f.emitPeek (fun i => i.1) (ABft.peek st)
/-- `AllocatingBreadthFirstTraverse::size_hint`, `forest/traverse.rs` 457-460. -/
def abftSizeHint (st : ABft.St) : Nat × Option Nat := ABft.sizeHint st

/-- `Forest::ancestors_or_self`, `forest.rs` 1322-1326, `node.rs` 497-499. -/
def ancestorsOrSelf (f : Forest T) (id : Nat) : R Ancestors.St := f.iterNew id Ancestors.withStart
/-- `Ancestors::next`, `forest/traverse.rs` 251-258. -/
def ancestorsNext (f : Forest T) (st : Ancestors.St) : R (Option Nat × Ancestors.St) :=
  f.emit (fun i => i) (Ancestors.next f.hier st)
/-- `Ancestors::peek`, `forest/traverse.rs` 236-245. -/
def ancestorsPeek (f : Forest T) (st : Ancestors.St) : R (Option Nat) :=
  f.emitPeek (fun i => i) (.ok (Ancestors.peek st))

/-- `first_skipped` / `last_skipped`, `node.rs` 1419-1430: advance once, ignoring the item. -/
def skipped {ι σ : Type} (adv : σ → R (Option ι × σ)) (r : R σ) : R σ :=
  match r with
  | .error e => .error e
  | .ok st =>
    match adv st with
    | .error e => .error e
    | .ok (_, st') => .ok st'

/-- `Forest::ancestors`, `forest.rs` 1294-1298, `node.rs` 473-475. -/
def ancestors (f : Forest T) (id : Nat) : R Ancestors.St :=
  skipped f.ancestorsNext (f.ancestorsOrSelf id)

/-- `Siblings::next`, `forest/traverse.rs` 338-345. -/
def siblingsNext (f : Forest T) (st : Siblings.St) : R (Option Nat × Siblings.St) :=
  f.emit (fun i => i) (Siblings.next f.hier st)
/-- `Siblings::next_back`, `forest/traverse.rs` 349-356. -/
def siblingsNextBack (f : Forest T) (st : Siblings.St) : R (Option Nat × Siblings.St) :=
  f.emit (fun i => i) (Siblings.nextBack f.hier st)
/-- `Siblings::peek`, `forest/traverse.rs` 312-321. -/
def siblingsPeek (f : Forest T) (st : Siblings.St) : R (Option Nat) :=
  f.emitPeek (fun i => i) (.ok (Siblings.peek st))
/-- `Siblings::peek_back`, `forest/traverse.rs` 323-332. -/
def siblingsPeekBack (f : Forest T) (st : Siblings.St) : R (Option Nat) :=
  f.emitPeek (fun i => i) (.ok (Siblings.peekBack st))

/-- `Forest::children`, `forest.rs` 1352-1356, `node.rs` 523-525. -/
def children (f : Forest T) (id : Nat) : R Siblings.St := f.iterNew id Siblings.withParent
/-- `Forest::following_siblings_or_self`, `forest.rs` 1410-1414, `node.rs` 577-579. -/
def followingSiblingsOrSelf (f : Forest T) (id : Nat) : R Siblings.St :=
  f.iterNew id Siblings.withFirstSibling
/-- `Forest::following_siblings`, `forest.rs` 1381-1385, `node.rs` 550-552. -/
def followingSiblings (f : Forest T) (id : Nat) : R Siblings.St :=
  skipped f.siblingsNext (f.followingSiblingsOrSelf id)
/-- `Forest::preceding_siblings_or_self`, `forest.rs` 1494-1498, `node.rs` 655-657. -/
def precedingSiblingsOrSelf (f : Forest T) (id : Nat) : R Siblings.St :=
  f.iterNew id Siblings.withLastSibling
/-- `Forest::preceding_siblings`, `forest.rs` 1452-1456, `node.rs` 616-618. -/
def precedingSiblings (f : Forest T) (id : Nat) : R Siblings.St :=
  skipped f.siblingsNextBack (f.precedingSiblingsOrSelf id)

end Forest

/-! ### `NodeMut`, `src/dynamic/forest/node.rs` 679-1416

A `NodeMut` is a mutably borrowed forest and a live ID. -/

/-- `AdoptAs`, `src/dynamic/anchor.rs` 3-14. -/
inductive AdoptAs where
  | firstChild
  | lastChild
  | previousSibling
  | nextSibling
deriving DecidableEq, Repr

/-- `AdoptAs::insert_with_anchor`, `src/dynamic/anchor.rs` 16-27. -/
def AdoptAs.insertWithAnchor (a : AdoptAs) (anchor : Nat) : InsertAs :=
  match a with
  | .firstChild => .firstChildOf anchor
  | .lastChild => .lastChildOf anchor
  | .previousSibling => .previousSiblingOf anchor
  | .nextSibling => .nextSiblingOf anchor

namespace NodeMut
variable {T : Type}

/-- `NodeMut::create`, `node.rs` 964-967. -/
def create (cap : Nat) (self : Nat) (d : T) (dest : AdoptAs) : M (Forest T) Nat :=
  Forest.createInsert cap d (dest.insertWithAnchor self)

/-- `NodeMut::try_adopt`, `node.rs` 1062-1067. -/
def tryAdopt (self node : Nat) (dest : AdoptAs) : M (Forest T) (Except StructureError Unit) :=
  Forest.onHier (Hier.insert node (dest.insertWithAnchor self))

/-- `NodeMut::adopt`, `node.rs` 1044-1047. -/
def adopt (self node : Nat) (dest : AdoptAs) : M (Forest T) Unit := do
  let r ← tryAdopt self node dest
  match r with
  | .error _ => M.panic "[precondition] structure to be made should be valid"
  | .ok () => pure ()

/-- `NodeMut::detach`, `node.rs` 1126-1128. -/
def detach (self : Nat) : M (Forest T) Unit := Forest.onHier (Hier.detach self)

/-- `NodeMut::detach_single`, `node.rs` 1188-1190. -/
def detachSingle (self : Nat) : M (Forest T) (Except StructureError Unit) :=
  Forest.onHier (Hier.detachSingle self)

/-- `NodeMut::remove_hooked_panic_safe`, `node.rs` 1267-1269. -/
def removeHookedPanicSafe {S : Type} (hook : Forest.Hook S T) (self : Nat) :
    M (Forest T × S) Unit := Forest.removeHookedPanicSafe hook self

/-- `NodeMut::remove_hooked`, `node.rs` 1340-1342. -/
def removeHooked {S : Type} (hook : Forest.Hook S T) (self : Nat) : M (Forest T × S) Unit :=
  Forest.removeHooked hook self

/-- `NodeMut::remove`, `node.rs` 1405-1407. -/
def remove (self : Nat) : M (Forest T) Unit := Forest.remove self

end NodeMut

end Treena
