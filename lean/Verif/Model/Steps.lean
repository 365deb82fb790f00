import Verif.Model.Forest
/-!
# Instrumented mutators

The functions that change a forest, written once more with a counter beside the state.  A step is

* one call of a function of the interface (with all its straight-line code: a fixed number of table lookups and
  writes, pushing to the vectors in constant amortised time), or
* one round of a `while` loop, including the straight-line code and the calls of user code (hooks, `T::clone`) in its body.

Every loop of the modelled functions is counted, so the number of steps is the running time up to a constant factor (not
counting the time user code takes).  Forgetting the counter gives the functions of `Model/Hierarchy.lean` and
`Model/Forest.lean` back (`C79_same_functions`).  The counter is kept when a call panics. -/

set_option autoImplicit false

namespace Treena.Steps

/-- One step. -/
def tick {σ : Type} : M (σ × Nat) Unit := M.modify fun p => (p.1, p.2 + 1)

/-- Code that is part of a step counted elsewhere. -/
def free {σ α : Type} (m : M σ α) : M (σ × Nat) α := M.zoom (fun p => p.1) (fun s p => (s, p.2)) m

/-! ### `hierarchy.rs` -/

/-- Loop `hierarchy.rs` 864-869. -/
def ancestorsMeet (root : Nat) : Nat → Ancestors.St → M (Hier × Nat) Bool
  | 0, _ => M.throw .diverge
  | fuel + 1, st => do
    tick
    let (a, st') ← free (M.read fun h => Ancestors.next h st)
    match a with
    | none => pure false
    | some ancestor => if ancestor = root then pure true else ancestorsMeet root fuel st'

/-- Inner loop `hierarchy.rs` 913-926. -/
def rangeContains (last prevAncestor : Nat) : Nat → Option Nat → M (Hier × Nat) Bool
  | _, none => pure false
  | 0, some _ => M.throw .diverge
  | fuel + 1, some toplevel => do
    tick
    if toplevel = prevAncestor then pure true
    else if toplevel = last then pure false
    else do
      let nb ← free (Hier.nbrOf toplevel "[consistency] nodes in the range must be alive")
      let n ← free (M.read fun _ => nb.nextSibling)
      rangeContains last prevAncestor fuel n

/-- Outer loop `hierarchy.rs` 888-929. -/
def rangeLoop (first last rangeParent : Nat) (innerFuel : Nat) : Nat → Ancestors.St → Nat → M (Hier × Nat) Bool
  | 0, _, _ => M.throw .diverge
  | fuel + 1, st, prevAncestor => do
    tick
    let (a, st') ← free (M.read fun h => Ancestors.next h st)
    match a with
    | none => pure false
    | some ancestor =>
      if ancestor ≠ rangeParent then rangeLoop first last rangeParent innerFuel fuel st' prevAncestor
      else do
        let b ← rangeContains last prevAncestor innerFuel (some first)
        if b then pure true else rangeLoop first last rangeParent innerFuel fuel st' ancestor

/-- `SiblingsRange::transplant_would_make_cyclic_links`, `hierarchy.rs` 854-933. -/
def wouldMakeCyclicLinks (first last parent : Nat) : M (Hier × Nat) Bool := do
  let firstNbs ← free (Hier.nbrOf first "[consistency] nodes in the range must be alive")
  let fuel ← free (M.read fun h => .ok h.loopFuel)
  if first = last then do
    let st ← free (M.read fun h => Ancestors.withStart parent h)
    ancestorsMeet first fuel st
  else do
    let rp ← free (M.read fun _ => firstNbs.getParent)
    let rangeParent ← free (M.read fun _ =>
      expect rp "[consistency] range with multiple toplevel nodes must have a parent")
    if rangeParent = parent then pure false
    else do
      let st ← free (M.read fun h => Ancestors.withStart parent h)
      let (item, st') ← free (M.read fun h => Ancestors.next h st)
      let prevAncestor ← free (M.read fun _ => expect item "[validity] start node itself must be iterated")
      rangeLoop first last rangeParent fuel (2 * fuel) st' prevAncestor

/-- Loop `hierarchy.rs` 822-836. -/
def rewriteParents (parent last : Nat) : Nat → Option Nat → M (Hier × Nat) Unit
  | _, none => pure ()
  | 0, some _ => M.throw .diverge
  | fuel + 1, some child => do
    tick
    if child = parent then
      M.panic "[consistency] possibility of ancestor-descendant loop is already tested"
    else do
      free (Hier.updNbr child "[consistency] nodes in the range must be alive"
        fun nb => { nb with parent := some parent })
      if child = last then pure ()
      else do
        let nb ← free (Hier.nbrOf child "[consistency] nodes in the range must be alive")
        let n ← free (M.read fun _ => nb.nextSibling)
        rewriteParents parent last fuel n

/-- `SiblingsRange::transplant`, `hierarchy.rs` 753-852. -/
def transplant (first last parent : Nat) (prevSibling nextSibling : Option Nat) :
    M (Hier × Nat) (Except StructureError Unit) := do
  let cyc ← wouldMakeCyclicLinks first last parent
  if cyc then pure (.error .ancestorDescendantLoop)
  else do
    free (Hier.transplantDisconnect first last)
    let fuel ← free (M.read fun h => .ok h.loopFuel)
    rewriteParents parent last fuel (some first)
    free (Hier.transplantConnect first last parent prevSibling nextSibling)
    pure (.ok ())

/-- `Hierarchy::detach`, `hierarchy.rs` 187-243 (no loop). -/
def detach (node : Nat) : M (Hier × Nat) Unit := do
  tick
  free (Hier.detach node)

/-- `Hierarchy::detach_single`, `hierarchy.rs` 245-337. -/
def detachSingle (node : Nat) : M (Hier × Nat) (Except StructureError Unit) := do
  tick
  let nbs ← free (Hier.nbrOf node "[precondition] the node must be alive")
  let fl ← free (M.read fun h => nbs.firstLastChild h)
  match fl with
  | none => do
    free (Hier.detach node)
    pure (.ok ())
  | some (firstChild, lastChild) => do
    let parent ← free (M.read fun _ => nbs.getParent)
    match parent with
    | none =>
      if firstChild ≠ lastChild then pure (.error .siblingsWithoutParent)
      else do
        free (Hier.detach firstChild)
        free (Hier.detach node)
        pure (.ok ())
    | some parent => do
      let prev ← free (M.read fun h => nbs.prevSibling h)
      let next ← free (M.read fun _ => nbs.nextSibling)
      free (Hier.connectTriangle (some parent) prev next)
      let range ← free (M.read fun h => h.rangeNew firstChild lastChild)
      let r ← transplant range.1 range.2 parent prev next
      match r with
      | .error _ => M.panic "[consistency] structure being created must be valid"
      | .ok () => do
        free (Hier.updNbr node "[precondition] the node must be alive"
          fun nb => { nb with parent := none, next := none, prevCyc := some node })
        let nb ← free (Hier.nbrOf node "[precondition] the node must be alive")
        let fc ← free (M.read fun _ => nb.firstChild)
        if fc ≠ none then M.panic "[consistency] the children have been transplanted"
        else pure (.ok ())

/-- `Hierarchy::prepend_child`, `hierarchy.rs` 364-385. -/
def prependChild (newFirstChild parent : Nat) : M (Hier × Nat) (Except StructureError Unit) := do
  let nb ← free (Hier.nbrOf parent "[precondition] the node must be alive")
  let oldFirstChild ← free (M.read fun _ => nb.firstChild)
  let r ← free (M.read fun h => h.rangeSingle newFirstChild)
  transplant r.1 r.2 parent none oldFirstChild

/-- `Hierarchy::append_child`, `hierarchy.rs` 387-409. -/
def appendChild (newLastChild parent : Nat) : M (Hier × Nat) (Except StructureError Unit) := do
  let nb ← free (Hier.nbrOf parent "[precondition] the parent must be alive")
  let oldLastChild ← free (M.read fun h => nb.lastChild h)
  let r ← free (M.read fun h => h.rangeSingle newLastChild)
  transplant r.1 r.2 parent oldLastChild none

/-- `Hierarchy::insert_before`, `hierarchy.rs` 411-440. -/
def insertBefore (node nextSibling : Nat) : M (Hier × Nat) (Except StructureError Unit) :=
  if node = nextSibling then pure (.error .unorderableSiblings)
  else do
    let nextNbs ← free (Hier.nbrOf nextSibling "[precondition] the next sibling must be alive")
    let po ← free (M.read fun _ => nextNbs.getParent)
    let parent ← free (M.read fun _ => expect po "[precondition] the parent must be alive to have siblings")
    let prevSibling ← free (M.read fun h => nextNbs.prevSibling h)
    let r ← free (M.read fun h => h.rangeSingle node)
    transplant r.1 r.2 parent prevSibling (some nextSibling)

/-- `Hierarchy::insert_after`, `hierarchy.rs` 442-471. -/
def insertAfter (node prevSibling : Nat) : M (Hier × Nat) (Except StructureError Unit) :=
  if node = prevSibling then pure (.error .unorderableSiblings)
  else do
    let prevNbs ← free (Hier.nbrOf prevSibling "[precondition] the previous sibling must be alive")
    let po ← free (M.read fun _ => prevNbs.getParent)
    let parent ← free (M.read fun _ => expect po "[precondition] the parent must be alive to have siblings")
    let nextSibling ← free (M.read fun _ => prevNbs.nextSibling)
    let r ← free (M.read fun h => h.rangeSingle node)
    transplant r.1 r.2 parent (some prevSibling) nextSibling

/-- `Hierarchy::insert`, `hierarchy.rs` 339-362. -/
def hierInsert (node : Nat) (dest : InsertAs) : M (Hier × Nat) (Except StructureError Unit) := do
  tick
  match dest with
  | .firstChildOf parent => prependChild node parent
  | .lastChildOf parent => appendChild node parent
  | .previousSiblingOf next => insertBefore node next
  | .nextSiblingOf prev => insertAfter node prev

/-! ### `forest.rs` -/

variable {T : Type}

/-- Run an operation on `self.hierarchy`. -/
def onHier {α : Type} (m : M (Hier × Nat) α) : M (Forest T × Nat) α :=
  M.zoom (fun p => (p.1.hier, p.2)) (fun q p => ({ p.1 with hier := q.1 }, q.2)) m

/-- Run on the forest component. -/
def onForest {S α : Type} (m : M (Forest T × Nat) α) : M ((Forest T × S) × Nat) α :=
  M.zoom (fun p => (p.1.1, p.2)) (fun q p => ((q.1, p.1.2), q.2)) m

/-- `Forest::insert`, `forest.rs` 569-572. -/
def insert (node : Nat) (dest : InsertAs) : M (Forest T × Nat) (Except StructureError Unit) :=
  onHier (hierInsert node dest)

/-- `create_insert_momo`, `forest.rs` 1926-1949. -/
def createInsertMomo (cap : Nat) (d : T) (dest : InsertAs) : M (Forest T × Nat) Nat := do
  tick
  let valid ← free (M.read fun f => .ok (f.hier.isValid dest.toAnchor))
  if !valid then M.panic "[precondition] the anchor must be valid for this forest"
  else do
    let newId ← free (Forest.onHier (Hier.createRoot cap))
    free (Forest.pushData d)
    let r ← onHier (hierInsert newId dest)
    match r with
    | .error _ => M.panic "[precondition] newly created node is independent from the destination"
    | .ok () => pure newId

/-- The loops of `forest.rs` 780-808 and 895-910.  The body `close` for `Close(id)` is straight-line code. -/
def removeLoop {S : Type} (close : Nat → M (Forest T × S) Unit) : Nat → Safe.St → M ((Forest T × S) × Nat) Unit
  | 0, _ => M.throw .diverge
  | fuel + 1, tr => do
    tick
    let (ev, tr') ← free (M.read fun p => Safe.next p.1.hier tr)
    match ev with
    | none => pure ()
    | some (.opn _) => removeLoop close fuel tr'
    | some (.cls id) => do
      free (close id)
      removeLoop close fuel tr'

/-- `forest.rs` 774-779 and 889-894, then the loop. -/
def removeWith {S : Type} (close : Nat → M (Forest T × S) Unit) (node : Nat) : M ((Forest T × S) × Nat) Unit := do
  tick
  let alive ← free (M.read fun p => .ok (p.1.hier.isAlive node))
  if !alive then pure ()
  else do
    free (Forest.onForest (Forest.detach node))
    let tr ← free (M.read fun p => Safe.new node p.1.hier)
    let fuel ← free (M.read fun p => .ok (Forest.removeFuel p.1))
    removeLoop close fuel tr

/-- `Forest::remove_hooked_panic_safe`, `forest.rs` 765-812. -/
def removeHookedPanicSafe {S : Type} (hook : Forest.Hook S T) (node : Nat) : M ((Forest T × S) × Nat) Unit :=
  removeWith (Forest.closePanicSafe hook) node

/-- `Forest::remove_hooked`, `forest.rs` 880-915. -/
def removeHooked {S : Type} (hook : Forest.Hook S T) (node : Nat) : M ((Forest T × S) × Nat) Unit :=
  removeWith (Forest.closeForce hook) node

/-- `clone_next_node`, `forest.rs` 1673-1708 and 1815-1858. -/
def cloneNextNode {τ : Type} (cap : Nat) (cl : T → Option T) (src : Forest.CloneSrc T τ) :
    Nat → Nat → τ → M (Forest T × Nat) (Option Nat × Nat × τ)
  | 0, _, _ => M.throw .diverge
  | fuel + 1, cur, tr => do
    tick
    let (ev, tr') ← free (M.read fun f => src.next f tr)
    match ev with
    | none => M.panic "[consistency] traversal must end with the closing of the root node"
    | some (.opn srcId) => do
      let d ← free (M.read fun f => Forest.clonedData cl (src.data f) srcId)
      let cur' ← createInsertMomo cap d (.lastChildOf cur)
      pure (some srcId, cur', tr')
    | some (.cls _) => do
      let nb ← free (Forest.onHier (Hier.nbrOf cur "[consistency] the node being created must be alive"))
      let p ← free (M.read fun _ => nb.getParent)
      match p with
      | some id => cloneNextNode cap cl src fuel id tr'
      | none => pure (none, cur, tr')

/-- `forest.rs` 1723-1730 and 1872-1881. -/
def cloneLoop {S τ : Type} (cap : Nat) (cl : T → Option T) (src : Forest.CloneSrc T τ) (hook : Forest.MapHook S)
    (innerFuel : Nat) : Nat → Nat → τ → M ((Forest T × S) × Nat) (Nat × τ)
  | 0, _, _ => M.throw .diverge
  | fuel + 1, cur, tr => do
    tick
    let (o, cur', tr') ← onForest (cloneNextNode cap cl src innerFuel cur tr)
    match o with
    | none => pure (cur', tr')
    | some srcId => do
      free (Forest.callMap hook srcId cur')
      cloneLoop cap cl src hook innerFuel fuel cur' tr'

/-- `Forest::clone_local_tree_with_id_mapping`, `forest.rs` 1663-1739. -/
def cloneLocalTreeWithIdMapping {S : Type} (cap : Nat) (cl : T → Option T) (hook : Forest.MapHook S)
    (srcId : Nat) : M ((Forest T × S) × Nat) Nat := do
  tick
  let d ← free (M.read fun p => expect (p.1.getData srcId) "[consistency] the node must be alive")
  let d ← free (M.read fun _ => expect (cl d) "T::clone panicked")
  let rootId ← free (Forest.onForest (Forest.createRoot cap d))
  free (Forest.callMap hook srcId rootId)
  let tr ← free (M.read fun p => Safe.new srcId p.1.hier)
  let (_, tr) ← free (M.read fun p => Safe.next p.1.hier tr)
  let (cur, _) ← cloneLoop cap cl Forest.localSrc hook (Forest.cloneFuel cap cap) (cap + 1) rootId tr
  if cur ≠ rootId then
    M.panic "[consistency] all nodes including the root must have been closed"
  else pure rootId

/-- `Forest::clone_foreign_tree_with_id_mapping`, `forest.rs` 1801-1895. -/
def cloneForeignTreeWithIdMapping {S : Type} (cap : Nat) (cl : T → Option T) (hook : Forest.MapHook S)
    (fsrc : Forest T) (srcRoot : Nat) : M ((Forest T × S) × Nat) Nat := do
  tick
  let d ← free (M.read fun _ =>
    expect (fsrc.getData srcRoot) "[validity] the node has been checked to be alive")
  let d ← free (M.read fun _ => expect (cl d) "T::clone panicked")
  let rootId ← free (Forest.onForest (Forest.createRoot cap d))
  free (Forest.callMap hook srcRoot rootId)
  let tr ← free (M.read fun _ => Dft.withToplevel srcRoot fsrc.hier)
  let (_, tr) ← free (M.read fun _ => Dft.next fsrc.hier tr)
  let (cur, tr) ← cloneLoop cap cl (Forest.foreignSrc fsrc) hook (Forest.cloneFuel cap fsrc.hier.nbrs.length)
    (cap + 1) rootId tr
  if cur ≠ rootId then
    M.panic "[consistency] traversal must end with the closing of the destination root node"
  else do
    let (last, _) ← free (M.read fun _ => Dft.next fsrc.hier tr)
    if last ≠ none then
      M.panic "[consistency] traversal must also end with the closing of the source root node"
    else pure rootId

end Treena.Steps
