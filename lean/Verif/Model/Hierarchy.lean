import Verif.Model.Basic
/-!
# Model of `src/dynamic/hierarchy.rs`

Node IDs are the `usize` values that `to_usize` returns (`src/dynamic/id.rs` 78-89, 120-128); see
`Model/NonMax.lean` for the justification.  `cap` is the number of IDs of the ID type:
`Id::from_usize(v)` is `Some` exactly when `v < cap`.
-/

set_option autoImplicit false

namespace Treena

/-- `StructureError`, `src/dynamic/forest.rs` 1951-1960. -/
inductive StructureError where
  | ancestorDescendantLoop
  | unorderableSiblings
  | siblingsWithoutParent
deriving DecidableEq, Repr

/-- `InsertAs`, `src/dynamic/anchor.rs` 29-43. -/
inductive InsertAs where
  | firstChildOf (id : Nat)
  | lastChildOf (id : Nat)
  | previousSiblingOf (id : Nat)
  | nextSiblingOf (id : Nat)
deriving DecidableEq, Repr

/-- `InsertAs::to_anchor`, `src/dynamic/anchor.rs` 59-72. -/
def InsertAs.toAnchor : InsertAs → Nat
  | .firstChildOf id => id
  | .lastChildOf id => id
  | .previousSiblingOf id => id
  | .nextSiblingOf id => id

/-- `struct Neighbors`, `hierarchy.rs` 483-504. `prevCyc` is `prev_sibling_cyclic`. -/
structure Neighbors where
  parent : Option Nat
  prevCyc : Option Nat
  next : Option Nat
  first : Option Nat
deriving DecidableEq, Repr

/-- `struct Hierarchy`, `hierarchy.rs` 13-18; `Default` (474-481) is the empty list. -/
structure Hier where
  nbrs : List Neighbors
deriving DecidableEq, Repr

namespace Neighbors

/-- `Neighbors::new_root`, `hierarchy.rs` 507-517. -/
def newRoot (id : Nat) : Neighbors :=
  { parent := none, prevCyc := some id, next := none, first := none }

/-- `Neighbors::is_alive`, `hierarchy.rs` 519-524. -/
def isAlive (nb : Neighbors) : Bool := nb.prevCyc.isSome

end Neighbors

/-- `Hierarchy::neighbors`, `hierarchy.rs` 34-40 (and `neighbors_mut`, 42-50, for the lookup). -/
def Hier.neighbors (h : Hier) (id : Nat) : Option Neighbors :=
  (h.nbrs[id]?).filter (fun v => v.isAlive)

/-- `Hierarchy::is_valid`, `hierarchy.rs` 52-56. -/
def Hier.isValid (h : Hier) (id : Nat) : Bool := decide (id < h.nbrs.length)

/-- `Hierarchy::is_alive`, `hierarchy.rs` 58-64. -/
def Hier.isAlive (h : Hier) (id : Nat) : Bool :=
  match h.nbrs[id]? with
  | some v => v.isAlive
  | none => false

namespace Neighbors

/-- `Neighbors::parent`, `hierarchy.rs` 526-538. -/
def getParent (nb : Neighbors) : R (Option Nat) :=
  if !nb.isAlive then .error (.panic "[precondition] the node must be alive") else .ok nb.parent

/-- `Neighbors::next_sibling`, `hierarchy.rs` 540-552. -/
def nextSibling (nb : Neighbors) : R (Option Nat) :=
  if !nb.isAlive then .error (.panic "[precondition] the node must be alive") else .ok nb.next

/-- `Neighbors::prev_sibling`, `hierarchy.rs` 554-573. -/
def prevSibling (nb : Neighbors) (h : Hier) : R (Option Nat) :=
  match nb.prevCyc with
  | none => .error (.panic "[precondition] the node must be alive")
  | some v =>
    match h.neighbors v with
    | none => .error (.panic "[consistency] the `prev_sibling_cyclic` node must be alive")
    | some prevCycNode => .ok (prevCycNode.next.bind fun _ => some v)

/-- `Neighbors::first_child`, `hierarchy.rs` 575-587. -/
def firstChild (nb : Neighbors) : R (Option Nat) :=
  if !nb.isAlive then .error (.panic "[precondition] the node must be alive") else .ok nb.first

/-- `Neighbors::first_last_child`, `hierarchy.rs` 599-621. -/
def firstLastChild (nb : Neighbors) (h : Hier) : R (Option (Nat × Nat)) :=
  if !nb.isAlive then .error (.panic "[precondition] the node must be alive") else
  match nb.firstChild with
  | .error e => .error e
  | .ok none => .ok none
  | .ok (some firstChild) =>
    match h.neighbors firstChild with
    | none => .error (.panic "[consistency] children of a live node must also be alive")
    | some c =>
      match c.prevCyc with
      | some lastChild => .ok (some (firstChild, lastChild))
      | none => .error (.panic "[consistency] the last child must be alive")

/-- `Neighbors::last_child`, `hierarchy.rs` 589-597. -/
def lastChild (nb : Neighbors) (h : Hier) : R (Option Nat) :=
  match nb.firstLastChild h with
  | .error e => .error e
  | .ok o => .ok (o.map fun (_first, last) => last)

/-- `Neighbors::is_alone`, `hierarchy.rs` 623-634. -/
def isAlone (nb : Neighbors) : R Bool :=
  if !nb.isAlive then .error (.panic "[precondition] the node must be alive") else
  .ok (nb.parent.isNone && nb.next.isNone && nb.first.isNone)

/-- The record written by `Neighbors::force_make_removed`, `hierarchy.rs` 664-667. -/
def removed : Neighbors := { parent := none, prevCyc := none, next := none, first := none }

end Neighbors

namespace Hier

/-- `Id::from_usize` for an ID type with `cap` values, `src/dynamic/id.rs` 124-128. -/
def fromUsize (cap v : Nat) : Option Nat := if v < cap then some v else none

/-- `Hierarchy::create_root`, `hierarchy.rs` 21-32. -/
def createRoot (cap : Nat) : M Hier Nat := fun h =>
  match fromUsize cap h.nbrs.length with
  | none => .fail (.panic "[precondition] node ID overflowed presumably due to too many node creations") h
  | some newId => .ok newId { nbrs := h.nbrs ++ [Neighbors.newRoot newId] }

/-- `self.neighbors(id).expect(msg)` used inside mutators. -/
def nbrOf (id : Nat) (msg : String) : M Hier Neighbors :=
  M.read fun h => expect (h.neighbors id) msg

/-- `let nbs = self.neighbors_mut(id).expect(msg); <assign fields of nbs>`. -/
def updNbr (id : Nat) (msg : String) (f : Neighbors → Neighbors) : M Hier Unit := fun h =>
  match h.neighbors id with
  | none => .fail (.panic msg) h
  | some nb => .ok () { nbrs := h.nbrs.set id (f nb) }

/-- `connect_triangle`, block `hierarchy.rs` 121-129 (links written into `prev_child`). -/
def connectPrev (parent prev next : Option Nat) : M Hier Unit :=
  match prev with
  | none => pure ()
  | some prevChild =>
    updNbr prevChild "[precondition] the given `prev_child` node must be alive"
      fun nb => { nb with parent := parent, next := next }

/-- `connect_triangle`, `hierarchy.rs` 132-150: the value for `next_child->prev_sibling_cyclic`. -/
def nextChildPrevCyclic (h : Hier) (parent prev : Option Nat) (nextChild : Nat) : R Nat :=
  match prev with
  | some prevChild => .ok prevChild
  | none =>
    match parent with
    | some parent =>
      match expect (h.neighbors parent) "[precondition] the given `parent` node must be alive" with
      | .error e => .error e
      | .ok nb =>
        match nb.lastChild h with
        | .error e => .error e
        | .ok o => .ok (o.getD nextChild)
    | none => .ok nextChild

/-- `connect_triangle`, block `hierarchy.rs` 131-159 (links written into `next_child`). -/
def connectNext (parent prev next : Option Nat) : M Hier Unit :=
  match next with
  | none => pure ()
  | some nextChild => do
    let pc ← M.read fun h => nextChildPrevCyclic h parent prev nextChild
    updNbr nextChild "[precondition] the given `next_child` node must be alive"
      fun nb => { nb with parent := parent, prevCyc := some pc }

/-- `connect_triangle`, block `hierarchy.rs` 161-184 (links written into the parent or into the
first child). -/
def connectParent (parent prev next : Option Nat) : M Hier Unit :=
  match parent with
  | none => pure ()
  | some parent =>
    match prev with
    | none =>
      updNbr parent "[precondition] the given `parent` node must be alive"
        fun nb => { nb with first := next }
    | some prevChild =>
      match next with
      | some _ => pure ()
      | none => do
        let nb ← nbrOf parent "[precondition] the given `parent` node must be alive"
        let fc ← M.read fun _ => nb.firstChild
        let firstChild ← M.read fun _ =>
          expect fc "[consistency] `parent` must have a child including `prev_child`"
        updNbr firstChild "[precondition] the first child of the `parent` must be alive"
          fun nb => { nb with prevCyc := some prevChild }

/-- `Hierarchy::connect_triangle`, `hierarchy.rs` 66-185. -/
def connectTriangle (parent prev next : Option Nat) : M Hier Unit :=
  if parent.isNone && prev.isSome && next.isSome then
    M.panic "[precondition] nodes cannot have siblings without having a parent"
  else if prev.isSome && prev == next then
    M.panic "[precondition] a node cannot be adjacent sibling of itself"
  else do
    connectPrev parent prev next
    connectNext parent prev next
    connectParent parent prev next

/-- `Hierarchy::detach`, `hierarchy.rs` 187-243. -/
def detach (node : Nat) : M Hier Unit := do
  let nbs ← nbrOf node "[precondition] the node must be alive"
  let parent ← M.read fun _ => nbs.getParent
  match parent with
  | none => pure ()
  | some parent => do
    let prev ← M.read fun h => nbs.prevSibling h
    let next ← M.read fun _ => nbs.nextSibling
    connectTriangle (some parent) prev next
    updNbr node "[precondition] the node must be alive"
      fun nb => { nb with parent := none, next := none, prevCyc := some node }

end Hier

/-! ### `AncestorsTraverser`, `src/dynamic/hierarchy/traverse.rs` 161-205
(needed here because `transplant_would_make_cyclic_links` uses it) -/

namespace Ancestors

/-- `AncestorsTraverser { next }`. -/
abbrev St := Option Nat

/-- `AncestorsTraverser::with_start`, `traverse.rs` 171-185. -/
def withStart (id : Nat) (h : Hier) : R St :=
  if !h.isAlive id then .error (.panic "[precondition] the node to be traversed must be alive")
  else .ok (some id)

/-- `AncestorsTraverser::next`, `traverse.rs` 187-197. -/
def next (h : Hier) (st : St) : R (Option Nat × St) :=
  match st with
  | none => .ok (none, none)
  | some n =>
    match expect (h.neighbors n) "[consistency] the node being traversed must be alive" with
    | .error e => .error e
    | .ok nb =>
      match nb.getParent with
      | .error e => .error e
      | .ok p => .ok (some n, p)

/-- `AncestorsTraverser::peek`, `traverse.rs` 199-204. -/
def peek (st : St) : Option Nat := st

end Ancestors

namespace Hier

/-! ### `SiblingsRange`, `hierarchy.rs` 695-934 (a range is the pair `first`, `last`) -/

/-- `SiblingsRange::with_single_toplevel`, `hierarchy.rs` 737-751. -/
def rangeSingle (h : Hier) (node : Nat) : R (Nat × Nat) :=
  if !h.isAlive node then .error (.panic "[precondition] the node must be alive")
  else .ok (node, node)

/-- `SiblingsRange::new`, `hierarchy.rs` 705-735. -/
def rangeNew (h : Hier) (first last : Nat) : R (Nat × Nat) :=
  if first = last then rangeSingle h first else
  match expect (h.neighbors first) "[precondition] `first` node must be alive" with
  | .error e => .error e
  | .ok fnb =>
    match fnb.getParent with
    | .error e => .error e
    | .ok firstParent =>
      match expect (h.neighbors last) "[precondition] `last` node must be alive" with
      | .error e => .error e
      | .ok lnb =>
        match lnb.getParent with
        | .error e => .error e
        | .ok lastParent =>
          if firstParent ≠ lastParent then
            .error (.panic "[precondition] `first` and `last` must have the same parent")
          else .ok (first, last)

/-- Loop `hierarchy.rs` 864-869: does the traverser meet `root`? -/
def ancestorsMeet (h : Hier) (root : Nat) : Nat → Ancestors.St → R Bool
  | 0, _ => .error .diverge
  | fuel + 1, st =>
    match Ancestors.next h st with
    | .error e => .error e
    | .ok (none, _) => .ok false
    | .ok (some ancestor, st') =>
      if ancestor = root then .ok true else ancestorsMeet h root fuel st'

/-- Inner loop `hierarchy.rs` 913-926: is `prevAncestor` a toplevel node of the range? -/
def rangeContains (h : Hier) (last prevAncestor : Nat) : Nat → Option Nat → R Bool
  | _, none => .ok false
  | 0, some _ => .error .diverge
  | fuel + 1, some toplevel =>
    if toplevel = prevAncestor then .ok true
    else if toplevel = last then .ok false
    else
      match expect (h.neighbors toplevel) "[consistency] nodes in the range must be alive" with
      | .error e => .error e
      | .ok nb =>
        match nb.nextSibling with
        | .error e => .error e
        | .ok n => rangeContains h last prevAncestor fuel n

/-- Outer loop `hierarchy.rs` 888-929.  As in the code, `prev_ancestor` is only updated after an
ancestor equal to `range_parent` was met (the `continue` in line 890 skips line 928). -/
def rangeLoop (h : Hier) (first last rangeParent : Nat) (innerFuel : Nat) :
    Nat → Ancestors.St → Nat → R Bool
  | 0, _, _ => .error .diverge
  | fuel + 1, st, prevAncestor =>
    match Ancestors.next h st with
    | .error e => .error e
    | .ok (none, _) => .ok false
    | .ok (some ancestor, st') =>
      if ancestor ≠ rangeParent then rangeLoop h first last rangeParent innerFuel fuel st' prevAncestor
      else
        match rangeContains h last prevAncestor innerFuel (some first) with
        | .error e => .error e
        | .ok true => .ok true
        | .ok false => rangeLoop h first last rangeParent innerFuel fuel st' ancestor

/-- Fuel for the loops that follow links: more than the number of nodes, so that exhausted fuel means an endless
loop (`ancestorsMeet_fuel`, `rangeContains_fuel`, `rangeLoop_fuel`, `rewriteParents_fuel`, `pushChildren_fuel`). -/
def loopFuel (h : Hier) : Nat := h.nbrs.length + 2

/-- `SiblingsRange::transplant_would_make_cyclic_links`, `hierarchy.rs` 854-933. -/
def wouldMakeCyclicLinks (h : Hier) (first last parent : Nat) : R Bool :=
  match expect (h.neighbors first) "[consistency] nodes in the range must be alive" with
  | .error e => .error e
  | .ok firstNbs =>
    if first = last then
      match Ancestors.withStart parent h with
      | .error e => .error e
      | .ok st => ancestorsMeet h first h.loopFuel st
    else
      match firstNbs.getParent with
      | .error e => .error e
      | .ok rp =>
        match expect rp "[consistency] range with multiple toplevel nodes must have a parent" with
        | .error e => .error e
        | .ok rangeParent =>
          if rangeParent = parent then .ok false else
          match Ancestors.withStart parent h with
          | .error e => .error e
          | .ok st =>
            match Ancestors.next h st with
            | .error e => .error e
            | .ok (item, st') =>
              match expect item "[validity] start node itself must be iterated" with
              | .error e => .error e
              | .ok prevAncestor =>
                rangeLoop h first last rangeParent h.loopFuel (2 * h.loopFuel) st' prevAncestor

/-- Loop `hierarchy.rs` 822-836: rewrite the parents in the range. -/
def rewriteParents (parent last : Nat) : Nat → Option Nat → M Hier Unit
  | _, none => pure ()
  | 0, some _ => M.throw .diverge
  | fuel + 1, some child =>
    if child = parent then
      M.panic "[consistency] possibility of ancestor-descendant loop is already tested"
    else do
      updNbr child "[consistency] nodes in the range must be alive"
        fun nb => { nb with parent := some parent }
      if child = last then pure ()
      else do
        let nb ← nbrOf child "[consistency] nodes in the range must be alive"
        let n ← M.read fun _ => nb.nextSibling
        rewriteParents parent last fuel n

/-- `transplant`, block `hierarchy.rs` 805-818: disconnect the range. -/
def transplantDisconnect (first last : Nat) : M Hier Unit := do
  let firstNbs ← nbrOf first "[consistency] nodes in the range must be alive"
  let rangeParent ← M.read fun _ => firstNbs.getParent
  let prevOfRange ← M.read fun h => firstNbs.prevSibling h
  let lastNbs ← nbrOf last "[consistency] nodes in the range must be alive"
  let nextOfRange ← M.read fun _ => lastNbs.nextSibling
  connectTriangle rangeParent prevOfRange nextOfRange

/-- `transplant`, `hierarchy.rs` 839-849: connect both ends of the range. -/
def transplantConnect (first last parent : Nat) (prevSibling nextSibling : Option Nat) :
    M Hier Unit := do
  if prevSibling ≠ some first then connectTriangle (some parent) prevSibling (some first)
  else pure ()
  if nextSibling ≠ some last then connectTriangle (some parent) (some last) nextSibling
  else pure ()

/-- `SiblingsRange::transplant`, `hierarchy.rs` 753-852. -/
def transplant (first last parent : Nat) (prevSibling nextSibling : Option Nat) :
    M Hier (Except StructureError Unit) := do
  let cyc ← M.read fun h => h.wouldMakeCyclicLinks first last parent
  if cyc then pure (.error .ancestorDescendantLoop)
  else do
    transplantDisconnect first last
    let fuel ← M.read fun h => .ok h.loopFuel
    rewriteParents parent last fuel (some first)
    transplantConnect first last parent prevSibling nextSibling
    pure (.ok ())

/-- `Hierarchy::detach_single`, `hierarchy.rs` 245-337. -/
def detachSingle (node : Nat) : M Hier (Except StructureError Unit) := do
  let nbs ← nbrOf node "[precondition] the node must be alive"
  let fl ← M.read fun h => nbs.firstLastChild h
  match fl with
  | none => do
    detach node
    pure (.ok ())
  | some (firstChild, lastChild) => do
    let parent ← M.read fun _ => nbs.getParent
    match parent with
    | none =>
      if firstChild ≠ lastChild then pure (.error .siblingsWithoutParent)
      else do
        detach firstChild
        detach node
        pure (.ok ())
    | some parent => do
      let prev ← M.read fun h => nbs.prevSibling h
      let next ← M.read fun _ => nbs.nextSibling
      connectTriangle (some parent) prev next
      let range ← M.read fun h => h.rangeNew firstChild lastChild
      let r ← transplant range.1 range.2 parent prev next
      match r with
      | .error _ => M.panic "[consistency] structure being created must be valid"
      | .ok () => do
        updNbr node "[precondition] the node must be alive"
          fun nb => { nb with parent := none, next := none, prevCyc := some node }
        -- debug_assert_eq!, lines 330-334
        let nb ← nbrOf node "[precondition] the node must be alive"
        let fc ← M.read fun _ => nb.firstChild
        if fc ≠ none then M.panic "[consistency] the children have been transplanted"
        else pure (.ok ())

/-- `Hierarchy::prepend_child`, `hierarchy.rs` 364-385. -/
def prependChild (newFirstChild parent : Nat) : M Hier (Except StructureError Unit) := do
  let nb ← nbrOf parent "[precondition] the node must be alive"
  let oldFirstChild ← M.read fun _ => nb.firstChild
  let r ← M.read fun h => h.rangeSingle newFirstChild
  transplant r.1 r.2 parent none oldFirstChild

/-- `Hierarchy::append_child`, `hierarchy.rs` 387-409. -/
def appendChild (newLastChild parent : Nat) : M Hier (Except StructureError Unit) := do
  let nb ← nbrOf parent "[precondition] the parent must be alive"
  let oldLastChild ← M.read fun h => nb.lastChild h
  let r ← M.read fun h => h.rangeSingle newLastChild
  transplant r.1 r.2 parent oldLastChild none

/-- `Hierarchy::insert_before`, `hierarchy.rs` 411-440. -/
def insertBefore (node nextSibling : Nat) : M Hier (Except StructureError Unit) :=
  if node = nextSibling then pure (.error .unorderableSiblings)
  else do
    let nextNbs ← nbrOf nextSibling "[precondition] the next sibling must be alive"
    let po ← M.read fun _ => nextNbs.getParent
    let parent ← M.read fun _ =>
      expect po "[precondition] the parent must be alive to have siblings"
    let prevSibling ← M.read fun h => nextNbs.prevSibling h
    let r ← M.read fun h => h.rangeSingle node
    transplant r.1 r.2 parent prevSibling (some nextSibling)

/-- `Hierarchy::insert_after`, `hierarchy.rs` 442-471. -/
def insertAfter (node prevSibling : Nat) : M Hier (Except StructureError Unit) :=
  if node = prevSibling then pure (.error .unorderableSiblings)
  else do
    let prevNbs ← nbrOf prevSibling "[precondition] the previous sibling must be alive"
    let po ← M.read fun _ => prevNbs.getParent
    let parent ← M.read fun _ =>
      expect po "[precondition] the parent must be alive to have siblings"
    let nextSibling ← M.read fun _ => prevNbs.nextSibling
    let r ← M.read fun h => h.rangeSingle node
    transplant r.1 r.2 parent (some prevSibling) nextSibling

/-- `Hierarchy::insert`, `hierarchy.rs` 339-362. -/
def insert (node : Nat) (dest : InsertAs) : M Hier (Except StructureError Unit) :=
  match dest with
  | .firstChildOf parent => prependChild node parent
  | .lastChildOf parent => appendChild node parent
  | .previousSiblingOf next => insertBefore node next
  | .nextSiblingOf prev => insertAfter node prev

/-- `neighbors_mut(id).expect(msg).make_removed()`, `hierarchy.rs` 636-650. -/
def makeRemoved (id : Nat) (msg : String) : M Hier Unit := do
  let nb ← nbrOf id msg
  let alone ← M.read fun _ => nb.isAlone
  if !alone then M.panic "[precondition] the node must be alive and alone"
  else updNbr id msg fun _ => Neighbors.removed

/-- `neighbors_mut(id).expect(msg).force_make_removed()`, `hierarchy.rs` 652-668.
(The alive check of lines 661-663 cannot fire: `neighbors_mut` only returns live records.) -/
def forceMakeRemoved (id : Nat) (msg : String) : M Hier Unit :=
  updNbr id msg fun _ => Neighbors.removed

end Hier

end Treena
