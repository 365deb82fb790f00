import Verif.Model.History
import Verif.Model.DebugPrint
/-!
# The release build

`Verif/Model/*` follows the code as compiled with debug assertions; its depths are unbounded natural numbers.
This module has

* the functions that contain a `debug_assert!`, `debug_assert_eq!` or `debug_assert_ne!`, without it, and the
  functions calling them (the definitions not repeated here contain no such assertion and call none of these);
* the traversers that compute depths, with the arithmetic of `usize` as a parameter: checked (a debug build
  panics on overflow) or wrapping (a release build).

The assertions of the crate are those of `hierarchy.rs` 330-334, `hierarchy/traverse.rs` 421-424,
`forest.rs` 787-794 and 799-802, `forest/debug_print.rs` 143 and 173-177; the arithmetic on `usize` is in
`hierarchy/traverse.rs` 533, 550, 577, 594, 662, 753, 788 and 799 (`len - 1` in line 788 follows the test `len <= 1`,
those of `debug_print.rs` 129 and 132 follow `last().map_or(..)` and `if let Some(..) = last()`).
-/

set_option autoImplicit false

namespace Treena
namespace Release

/-! ### Without the debug assertions -/

namespace Safe

/-- `SafeModeDepthFirstTraverser::next_of_next`, `hierarchy/traverse.rs` 393-435, without lines 421-424. -/
def nextOfNext (h : Hier) (root : Nat) (next : Ev Nat) : R (Option (Ev Nat)) :=
  if next = .cls root then .ok none else
  match next with
  | .opn id =>
    match expect (h.neighbors id) "[consistency] the current node must be alive" with
    | .error e => .error e
    | .ok nb =>
      match nb.firstChild with
      | .error e => .error e
      | .ok (some c) => .ok (some (.opn c))
      | .ok none => .ok (some (.cls id))
  | .cls id =>
    match expect (h.neighbors id) "[consistency] the current node must be alive" with
    | .error e => .error e
    | .ok nb =>
      match nb.nextSibling with
      | .error e => .error e
      | .ok (some s) => .ok (some (.opn s))
      | .ok none =>
        match nb.getParent with
        | .error e => .error e
        | .ok po =>
          match expect po "[consistency] parent node must exist since the node is not the root" with
          | .error e => .error e
          | .ok p => .ok (some (.cls p))

/-- `SafeModeDepthFirstTraverser::next`, `hierarchy/traverse.rs` 386-391. -/
def next (h : Hier) (st : Safe.St) : R (Option (Ev Nat) × Safe.St) :=
  match st.next with
  | none => .ok (none, st)
  | some n =>
    match nextOfNext h st.root n with
    | .error e => .error e
    | .ok nn => .ok (some n, { st with next := nn })

end Safe

namespace Hier
open Treena.Hier

/-- `Hierarchy::detach_single`, `hierarchy.rs` 245-337, without lines 330-334. -/
def detachSingle (node : Nat) : M Hier (Except StructureError Unit) := do
  let nbs ← nbrOf node "[precondition] the node must be alive"
  let fl ← M.read fun h => nbs.firstLastChild h
  match fl with
  | none => do
    detach node
    pure (.ok ())
  | some (firstChild, lastChild) => do
    let parent ← M.read fun _ => nbs.getParent
    match parent with
    | none =>
      if firstChild ≠ lastChild then pure (.error .siblingsWithoutParent)
      else do
        detach firstChild
        detach node
        pure (.ok ())
    | some parent => do
      let prev ← M.read fun h => nbs.prevSibling h
      let next ← M.read fun _ => nbs.nextSibling
      connectTriangle (some parent) prev next
      let range ← M.read fun h => h.rangeNew firstChild lastChild
      let r ← transplant range.1 range.2 parent prev next
      match r with
      | .error _ => M.panic "[consistency] structure being created must be valid"
      | .ok () => do
        updNbr node "[precondition] the node must be alive"
          fun nb => { nb with parent := none, next := none, prevCyc := some node }
        pure (.ok ())

end Hier

namespace Forest
variable {T : Type}
open Treena.Forest (onHier onForest takeData callHook Hook MapHook callMap CloneSrc cloneLoop cloneFuel removeFuel)

/-- `Forest::detach_single`, `forest.rs` 689-691 (also `NodeMut::detach_single`, `node.rs` 1188-1190). -/
def detachSingle (node : Nat) : M (Forest T) (Except StructureError Unit) :=
  onHier (Hier.detachSingle node)

/-- Loop body of `remove_hooked_panic_safe` for `Close(id)`, `forest.rs` 786-807, without lines 787-794
and 799-802. -/
def closePanicSafe {S : Type} (hook : Hook S T) (id : Nat) : M (Forest T × S) Unit := do
  let d ← onForest (do
    Treena.Forest.detach id
    let _ ← onHier (Hier.nbrOf id "[consistency] the current node must be alive here")
    onHier (Hier.makeRemoved id "[consistency] the current node must be alive here")
    takeData id)
  callHook hook d

/-- The removal loops of `forest.rs` 780-808 and 895-910. -/
def removeLoop {S : Type} (close : Nat → M (Forest T × S) Unit) :
    Nat → Treena.Safe.St → M (Forest T × S) Unit
  | 0, _ => M.throw .diverge
  | fuel + 1, tr => do
    let (ev, tr') ← M.read fun p => Safe.next p.1.hier tr
    match ev with
    | none => pure ()
    | some (.opn _) => removeLoop close fuel tr'
    | some (.cls id) => do
      close id
      removeLoop close fuel tr'

/-- Common part of the two removals, `forest.rs` 774-779 and 889-894, then the loop. -/
def removeWith {S : Type} (close : Nat → M (Forest T × S) Unit) (node : Nat) :
    M (Forest T × S) Unit := do
  let alive ← M.read fun p => .ok (p.1.hier.isAlive node)
  if !alive then pure ()
  else do
    onForest (Treena.Forest.detach node)
    let tr ← M.read fun p => Treena.Safe.new node p.1.hier
    let fuel ← M.read fun p => .ok (removeFuel p.1)
    removeLoop close fuel tr

/-- `Forest::remove_hooked_panic_safe`, `forest.rs` 765-812. -/
def removeHookedPanicSafe {S : Type} (hook : Hook S T) (node : Nat) : M (Forest T × S) Unit :=
  removeWith (closePanicSafe hook) node

/-- `Forest::remove_hooked`, `forest.rs` 880-915. -/
def removeHooked {S : Type} (hook : Hook S T) (node : Nat) : M (Forest T × S) Unit :=
  removeWith (Treena.Forest.closeForce hook) node

/-- `Forest::remove`, `forest.rs` 976-978. -/
def remove (node : Nat) : M (Forest T) Unit := fun f =>
  match removeHooked (S := Unit) (fun s _ => .ok s) node (f, ()) with
  | .ok _ (f', _) => .ok () f'
  | .fail e (f', _) => .fail e f'

/-- Source of `clone_local_tree_with_id_mapping`. -/
def localSrc : CloneSrc T Treena.Safe.St :=
  { next := fun f tr => Safe.next f.hier tr, data := fun f => f.data }

/-- `Forest::clone_local_tree_with_id_mapping`, `forest.rs` 1663-1739. -/
def cloneLocalTreeWithIdMapping {S : Type} (cap : Nat) (cl : T → Option T) (hook : MapHook S)
    (srcId : Nat) : M (Forest T × S) Nat := do
  let d ← M.read fun p => expect (p.1.getData srcId) "[consistency] the node must be alive"
  let d ← M.read fun _ => expect (cl d) "T::clone panicked"
  let rootId ← onForest (Treena.Forest.createRoot cap d)
  callMap hook srcId rootId
  let tr ← M.read fun p => Treena.Safe.new srcId p.1.hier
  let (_, tr) ← M.read fun p => Safe.next p.1.hier tr
  let (cur, _) ← cloneLoop cap cl localSrc hook (cloneFuel cap cap) (cap + 1) rootId tr
  if cur ≠ rootId then
    M.panic "[consistency] all nodes including the root must have been closed"
  else pure rootId

end Forest

/-- The forest after the call in a release build, returned or panicked.  As `Op.step`, with the functions above. -/
def step {T : Type} (cap : Nat) (f : Forest T) : Op T → Forest T
  | .detachSingle x => (Forest.detachSingle x f).state
  | .remove x => (Forest.remove x f).state
  | .removeHooked _ hook c x => Op.forestOf (Forest.removeHooked hook x (f, c))
  | .removeHookedPanicSafe _ hook c x => Op.forestOf (Forest.removeHookedPanicSafe hook x (f, c))
  | .cloneLocal _ cl hook c x => Op.forestOf (Forest.cloneLocalTreeWithIdMapping cap cl hook x (f, c))
  | op => Op.step cap f op

/-- The forest after a sequence of calls in a release build. -/
def run {T : Type} (cap : Nat) (f : Forest T) (ops : List (Op T)) : Forest T := ops.foldl (step cap) f

namespace DebugPrint
open Treena.DebugPrint
variable {S T : Type}

/-- `IndentWriter::complete_partial_indent`, `debug_print.rs` 141-149, without line 143. -/
def completePartialIndent (put : S → Text → Except S S) : P S Unit := do
  let is ← P.indents
  match is.getLast? with
  | some indent => emit put indent.trailingSpaces
  | none => pure ()

/-- Lines 172-188, for the content of one line, without lines 173-177. -/
def writeContent (put : S → Text → Except S S) (content : Text) (endsWithNewline : Bool) : P S Unit :=
  P.when (!content.isEmpty) do
    let l ← P.line
    P.when (l == .partialIndent) (completePartialIndent put)
    emit put content
    setLine (if endsWithNewline then .beforeIndent else .content)

/-- The loop of `write_str`, `debug_print.rs` 152-194. -/
def writeStrLoop (put : S → Text → Except S S) : Nat → Text → P S Unit
  | _, [] => pure ()
  | 0, _ :: _ => P.throw .diverge
  | n + 1, c :: cs => do
    startLine put
    P.when (lineEnd (c :: cs)).2 (P.modify fun w => { w with indents := clearLast w.indents })
    writeContent put ((c :: cs).take (lineEnd (c :: cs)).1) (lineEnd (c :: cs)).2
    writeStrLoop put n ((c :: cs).drop (lineEnd (c :: cs)).1)

/-- `write_str`, `debug_print.rs` 153-193. -/
def writeStr (put : S → Text → Except S S) (s : Text) : P S Unit := writeStrLoop put s.length s

/-- The formatter of the data, run on the writer. -/
def runFmt (put : S → Text → Except S S) : Fmt → P S Unit
  | .ret ok => fun w => if ok then .ok () w else .err w
  | .panic => P.throw (.panic "the data's formatter panics")
  | .write t k => fun w =>
    match writeStr put t w with
    | .ok _ w' => runFmt put (k true) w'
    | .err w' => runFmt put (k false) w'
    | .fail e w' => .fail e w'

/-- `debug_print.rs` 227-230, 234-237 (265-270, 274-277 for `Debug`). -/
def writeData (put : S → Text → Except S S) (disp : T → Fmt) (f : Forest T) (id : Nat) :
    P S Unit := do
  let d ← P.ofR (expect (f.getData id) "[consistency] the node must have a data when alive")
  runFmt put (disp d)

/-- The loop printing the descendants, `debug_print.rs` 233-238 (272-278). -/
def printLoop (put : S → Text → Except S S) (disp : T → Fmt) (f : Forest T) (fuel : Nat) :
    Nat → Dft.St → P S Dft.St
  | 0, _ => P.throw .diverge
  | n + 1, st => do
    let (o, st) ← prepareNext put f.hier fuel st
    match o with
    | none => pure st
    | some id =>
      writeData put disp f id
      printLoop put disp f fuel n st

/-- `inner` of the `fmt` functions, `debug_print.rs` 217-242 and 257-282. -/
def inner (put : S → Text → Except S S) (disp : T → Fmt) (f : Forest T) (root : Nat) :
    P S Unit := do
  let st ← P.ofR (Dft.withToplevel root f.hier)
  let (_, st) ← P.ofR (Dft.next f.hier st)
  writeData put disp f root
  let st ← printLoop put disp f (Treena.DebugPrint.fuel f.hier) (Treena.DebugPrint.fuel f.hier) st
  let (o, _) ← P.ofR (Dft.next f.hier st)
  P.when o.isSome (P.throw (.panic "assertion failed: traverser.next(hierarchy).is_none()"))

end DebugPrint

/-- Formatting `forest.debug_print(id)`, `forest.rs` 1900-1906, `debug_print.rs` 213-250 (252-290). -/
def Forest.debugPrint {S T : Type} (put : S → Text → Except S S) (disp : T → Fmt)
    (f : Forest T) (id : Nat) : M S (Except Unit Unit) := fun σ =>
  match expect (f.node id) "[precondition] the node must be alive" with
  | .error e => .fail e σ
  | .ok n =>
    match DebugPrint.inner put disp f n (Treena.DebugPrint.Writer.new σ) with
    | .ok _ w => .ok (.ok ()) w.sink
    | .err w => .ok (.error ()) w.sink
    | .fail e w => .fail e w.sink

end Release

/-! ### With the arithmetic of `usize` -/

/-- The two operations on depths, `d + 1` and `d - 1`. -/
structure Arith where
  succ : Nat → R Nat
  pred : Nat → R Nat

/-- Arithmetic of a debug build, `um` being `usize::MAX`: overflow panics. -/
def Arith.checked (um : Nat) : Arith where
  succ d := if d < um then .ok (d + 1) else .error (.panic "attempt to add with overflow")
  pred d := if 0 < d then .ok (d - 1) else .error (.panic "attempt to subtract with overflow")

/-- Arithmetic of a release build: it wraps around. -/
def Arith.wrapping (um : Nat) : Arith where
  succ d := .ok (if d < um then d + 1 else 0)
  pred d := .ok (if 0 < d then d - 1 else um)

namespace Mach
variable {T : Type}

namespace Shallow
open Treena.Shallow (St)

/-- Tail of `next_of_next_forward`, `hierarchy/traverse.rs` 521-554. -/
def stepFwd (A : Arith) (h : Hier) (maxDepth : Option Nat) (e : Ev Nat × Nat) : R (Option (Ev Nat × Nat)) :=
  match e with
  | (.opn id, d) =>
    if some d = maxDepth then .ok (some (.cls id, d)) else
    match travNbr h id with
    | .error e => .error e
    | .ok nb =>
      match nb.firstChild with
      | .error e => .error e
      | .ok (some c) =>
        match A.succ d with
        | .error e => .error e
        | .ok d' => .ok (some (.opn c, d'))
      | .ok none => .ok (some (.cls id, d))
  | (.cls id, d) =>
    match travNbr h id with
    | .error e => .error e
    | .ok nb =>
      match nb.nextSibling with
      | .error e => .error e
      | .ok (some s) => .ok (some (.opn s, d))
      | .ok none =>
        match nb.getParent with
        | .error e => .error e
        | .ok po =>
          match expect po "[consistency] parent node must exist since the node is not the root" with
          | .error e => .error e
          | .ok p =>
            match A.pred d with
            | .error e => .error e
            | .ok d' => .ok (some (.cls p, d'))

/-- Tail of `next_of_next_backward`, `hierarchy/traverse.rs` 565-598. -/
def stepBack (A : Arith) (h : Hier) (maxDepth : Option Nat) (e : Ev Nat × Nat) : R (Option (Ev Nat × Nat)) :=
  match e with
  | (.cls id, d) =>
    if some d = maxDepth then .ok (some (.opn id, d)) else
    match travNbr h id with
    | .error e => .error e
    | .ok nb =>
      match nb.lastChild h with
      | .error e => .error e
      | .ok (some c) =>
        match A.succ d with
        | .error e => .error e
        | .ok d' => .ok (some (.cls c, d'))
      | .ok none => .ok (some (.opn id, d))
  | (.opn id, d) =>
    match travNbr h id with
    | .error e => .error e
    | .ok nb =>
      match nb.prevSibling h with
      | .error e => .error e
      | .ok (some s) => .ok (some (.cls s, d))
      | .ok none =>
        match nb.getParent with
        | .error e => .error e
        | .ok po =>
          match expect po "[consistency] parent node must exist since the node is not the root" with
          | .error e => .error e
          | .ok p =>
            match A.pred d with
            | .error e => .error e
            | .ok d' => .ok (some (.opn p, d'))

/-- `next`, `hierarchy/traverse.rs` 485-497, 513-555. -/
def next (A : Arith) (h : Hier) (st : St) : R (Option (Ev Nat × Nat) × St) :=
  match deNext (stepFwd A h st.maxDepth) st.next with
  | .error e => .error e
  | .ok (o, n) => .ok (o, { st with next := n })
/-- `next_back`, `hierarchy/traverse.rs` 499-511, 557-599. -/
def nextBack (A : Arith) (h : Hier) (st : St) : R (Option (Ev Nat × Nat) × St) :=
  match deNextBack (stepBack A h st.maxDepth) st.next with
  | .error e => .error e
  | .ok (o, n) => .ok (o, { st with next := n })

end Shallow

/-- `next_inner`, `hierarchy/traverse.rs` 679-690. -/
def nextInner (A : Arith) (h : Hier) (depth : Nat) : Nat → Shallow.St → R (Option Nat × Shallow.St)
  | 0, _ => .error .diverge
  | fuel + 1, inner =>
    match Shallow.next A h inner with
    | .error e => .error e
    | .ok (none, inner') => .ok (none, inner')
    | .ok (some (ev, d), inner') =>
      if d = depth then
        match ev with
        | .opn id => .ok (some id, inner')
        | .cls _ => nextInner A h depth fuel inner'
      else nextInner A h depth fuel inner'

/-- `BreadthFirstTraverser::next`, `hierarchy/traverse.rs` 653-677. -/
def bftNext (A : Arith) (um : Nat) (h : Hier) (st : Bft.St) : R (Option (Nat × Nat) × Bft.St) :=
  match st.root with
  | none => .ok (none, st)
  | some root =>
    match nextInner A h st.depth (Bft.fuel h st.depth) st.inner with
    | .error e => .error e
    | .ok (some id, inner') => .ok (some (id, st.depth), { st with inner := inner' })
    | .ok (none, _) =>
      match A.succ st.depth with
      | .error e => .error e
      | .ok depth =>
        match Treena.Shallow.withToplevelAndMaxDepth um root h (some depth) with
        | .error e => .error e
        | .ok inner1 =>
          match nextInner A h depth (Bft.fuel h depth) inner1 with
          | .error e => .error e
          | .ok (some id, inner') =>
            .ok (some (id, depth), { inner := inner', root := some root, depth := depth })
          | .ok (none, inner') =>
            .ok (none, { inner := inner', root := none, depth := depth })

/-- Outer loop of `AllocatingBreadthFirstTraverser::next`, `hierarchy/traverse.rs` 743-777. -/
def abftLoop (A : Arith) (h : Hier) : Nat → ABft.St → R (Option (Nat × Nat) × ABft.St)
  | 0, _ => .error .diverge
  | fuel + 1, st =>
    match st.events with
    | [] => .ok (none, st)
    | .incrementDepth :: rest =>
      if rest.isEmpty then .ok (none, { st with events := [] })
      else
        match A.succ st.depth with
        | .error e => .error e
        | .ok depth => abftLoop A h fuel { events := rest ++ [.incrementDepth], depth := depth }
    | .node id :: rest =>
      match expect (h.neighbors id) "[consistency] the node to be traversed must be alive" with
      | .error e => .error e
      | .ok nb =>
        match nb.firstChild with
        | .error e => .error e
        | .ok fc =>
          match ABft.pushChildren h h.loopFuel fc rest with
          | .error e => .error e
          | .ok q => .ok (some (id, st.depth), { st with events := q })

/-- `AllocatingBreadthFirstTraverser::next`, `hierarchy/traverse.rs` 741-778. -/
def abftNext (A : Arith) (h : Hier) (st : ABft.St) : R (Option (Nat × Nat) × ABft.St) :=
  abftLoop A h (st.events.length + 2) st

/-- `AllocatingBreadthFirstTraverser::peek`, `hierarchy/traverse.rs` 792-805. -/
def abftPeek (A : Arith) (st : ABft.St) : R (Option (Nat × Nat)) :=
  match st.events with
  | [] => .ok none
  | .node n :: _ => .ok (some (n, st.depth))
  | .incrementDepth :: rest =>
    match rest with
    | [] => .ok none
    | .node n :: _ =>
      match A.succ st.depth with
      | .error e => .error e
      | .ok d => .ok (some (n, d))
    | .incrementDepth :: _ =>
      .error (.panic "[consistency] `IncrementDepth` must not appear right after `IncrementDepth`")

/-- `ShallowDepthFirstTraverse::next`, `forest/traverse.rs` 187-197. -/
def shallowNext (A : Arith) (f : Forest T) (st : Shallow.St) : R (Option (Ev Nat × Nat) × Shallow.St) :=
  f.emit (fun i => i.1.node) (Shallow.next A f.hier st)
/-- `ShallowDepthFirstTraverse::next_back`, `forest/traverse.rs` 201-211. -/
def shallowNextBack (A : Arith) (f : Forest T) (st : Shallow.St) : R (Option (Ev Nat × Nat) × Shallow.St) :=
  f.emit (fun i => i.1.node) (Shallow.nextBack A f.hier st)
/-- `BreadthFirstTraverse::next`, `forest/traverse.rs` 393-401. -/
def breadthFirstNext (A : Arith) (um : Nat) (f : Forest T) (st : Bft.St) : R (Option (Nat × Nat) × Bft.St) :=
  f.emit (fun i => i.1) (bftNext A um f.hier st)
/-- `AllocatingBreadthFirstTraverse::next`, `forest/traverse.rs` 447-455. -/
def allocatingNext (A : Arith) (f : Forest T) (st : ABft.St) : R (Option (Nat × Nat) × ABft.St) :=
  f.emit (fun i => i.1) (abftNext A f.hier st)
/-- `AllocatingBreadthFirstTraverse::peek`, `forest/traverse.rs` 431-441. -/
def allocatingPeek (A : Arith) (f : Forest T) (st : ABft.St) : R (Option (Nat × Nat)) :=
  f.emitPeek (fun i => i.1) (abftPeek A st)

end Mach

end Treena
