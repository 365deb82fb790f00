import Verif.Model.Builders
import Verif.Model.DebugPrint
import Verif.Model.Proxy
/-!
# The crate's own tests, run on the model

These are **tests of the model**, not proofs of properties: every documentation example of `forest.rs`, `node.rs`,
`chain_builder.rs` and `nest_builder.rs` and every test of `/repo/tests` and of the `tests` modules that is about
behaviour (not about type sizes or function addresses) is written out with the modelled functions and evaluated by
the kernel.  That they pass is evidence that the model means what the code does.  A test is a program that
starts with an empty forest; it passes if it ends without a panic.  IDs are of type `NodeIdUsize` on a 64-bit machine
(capacity `2^64 - 1`). -/

set_option autoImplicit false
set_option maxRecDepth 100000

namespace Treena
namespace RepoTests

abbrev F := Forest String

/-- A test. -/
abbrev Test := M F Unit

/-- The test ends without a panic. -/
def Test.passes (t : Test) : Bool :=
  match t Forest.new with
  | .ok () _ => true
  | .fail _ _ => false

def cap : Nat := 2 ^ 64 - 1
def um : Nat := 2 ^ 64 - 1

/-- `assert!`. -/
def assert {σ : Type} (b : Bool) : M σ Unit := if b then pure () else M.panic "assertion failed"

/-- `assert_eq!`, the left side computed from the forest. -/
def assertEq {α : Type} [DecidableEq α] (l : F → R α) (r : α) : Test := do
  let a ← M.read l
  assert (decide (a = r))

/-- `forest.debug_print(id).to_string()`. -/
def text (id : Nat) (f : F) : R String :=
  match f.debugPrint (fun out piece => .ok (out ++ piece)) (fun s => Fmt.ofPieces true [s.toList]) id [] with
  | .ok (.ok ()) out => .ok (String.ofList out)
  | .ok (.error ()) _ => .error (.panic "a Display implementation returned an error unexpectedly")
  | .fail e _ => .error e

/-- Lines of an expected text. -/
def lines (l : List String) : String := "\n".intercalate l

/-- `.collect()` of an iterator; the first argument bounds the number of items. -/
def collect {ι σ : Type} (next : σ → R (Option ι × σ)) : Nat → σ → R (List ι)
  | 0, _ => .error .diverge
  | n + 1, st =>
    match next st with
    | .error e => .error e
    | .ok (none, _) => .ok []
    | .ok (some i, st') =>
      match collect next n st' with
      | .error e => .error e
      | .ok l => .ok (i :: l)

def collected {ι σ : Type} (start : R σ) (next : σ → R (Option ι × σ)) : R (List ι) :=
  match start with
  | .error e => .error e
  | .ok st => collect next 100 st

/-- `.map(|node| *node.data())` for items with an ID in them. -/
def withData {ι κ : Type} (g : ι → R κ) (l : R (List ι)) : R (List κ) :=
  match l with
  | .error e => .error e
  | .ok l => l.mapM g

def evData (f : F) : Ev Nat → R (Ev String)
  | .opn i => (f.nodeData i).map .opn
  | .cls i => (f.nodeData i).map .cls
def nodesOf (f : F) (l : R (List Nat)) : R (List String) := withData f.nodeData l
def pairsOf (f : F) (l : R (List (Nat × Nat))) : R (List (String × Nat)) :=
  withData (fun p => (f.nodeData p.1).map fun d => (d, p.2)) l
def eventsOf (f : F) (l : R (List (Ev Nat))) : R (List (Ev String)) := withData (evData f) l
def eventPairsOf (f : F) (l : R (List (Ev Nat × Nat))) : R (List (Ev String × Nat)) :=
  withData (fun p => (evData f p.1).map fun d => (d, p.2)) l

def dft (id : Nat) (f : F) : R (List (Ev String)) := eventsOf f (collected (f.depthFirstTraverse id) f.dftNext)
def dftBack (id : Nat) (f : F) : R (List (Ev String)) :=
  eventsOf f (collected (f.depthFirstTraverse id) f.dftNextBack)
def shallow (id : Nat) (m : Option Nat) (f : F) : R (List (Ev String × Nat)) :=
  eventPairsOf f (collected (f.shallowDepthFirstTraverse um id m) f.shallowNext)
def shallowBack (id : Nat) (m : Option Nat) (f : F) : R (List (Ev String × Nat)) :=
  eventPairsOf f (collected (f.shallowDepthFirstTraverse um id m) f.shallowNextBack)
def bft (id : Nat) (f : F) : R (List (String × Nat)) :=
  pairsOf f (collected (f.breadthFirstTraverse um id) (f.bftNext um))
def abft (id : Nat) (f : F) : R (List (String × Nat)) :=
  pairsOf f (collected (f.allocatingBreadthFirstTraverse id) f.abftNext)
def ancestors (id : Nat) (f : F) : R (List String) := nodesOf f (collected (f.ancestors id) f.ancestorsNext)
def ancestorsOrSelf (id : Nat) (f : F) : R (List String) :=
  nodesOf f (collected (f.ancestorsOrSelf id) f.ancestorsNext)
def sibs (start : F → R Siblings.St) (f : F) : R (List String) := nodesOf f (collected (start f) f.siblingsNext)
def sibsBack (start : F → R Siblings.St) (f : F) : R (List String) :=
  nodesOf f (collected (start f) f.siblingsNextBack)

/-- `forest.node(id).expect(..)`, as done by the examples of `node.rs` and `hierarchy.rs`. -/
def theNode (id : Nat) : M F Nat := M.read fun f => expect (f.node id) "should never fail: node exists"

/-- A `ChainTreeBuilder` on the forest: `let mut builder = ChainTreeBuilder::new(&mut forest, data)`, then `m`. -/
def chain {α : Type} (d : String) (m : M (Chain String) α) : M F α := fun f =>
  match Chain.new cap d f with
  | .fail e f' => .fail e f'
  | .ok b _ =>
    match m b with
    | .ok a b' => .ok a b'.forest
    | .fail e b' => .fail e b'.forest

def child (d : String) : M (Chain String) Unit := Chain.child cap d
def sibling (d : String) : M (Chain String) Unit := Chain.sibling cap d
def up : M (Chain String) Unit := Chain.parent
def rootId : M (Chain String) Nat := M.read fun b => .ok b.rootId
def currentId : M (Chain String) Nat := M.read fun b => .ok b.currentId

def createRoot (d : String) : M F Nat := Forest.createRoot cap d
def createInsert (d : String) (a : InsertAs) : M F Nat := Forest.createInsert cap d a

/-- `Result::expect`. -/
def expectOk (m : M F (Except StructureError Unit)) : Test := do
  let r ← m
  match r with
  | .ok () => pure ()
  | .error _ => M.panic "should succeed"

/-- A call of a removal function with the hook `|data| removed.push(data)`. -/
def pushing (m : M (F × List String) Unit) : M F (List String) := fun f =>
  match m (f, []) with
  | .ok () (f', l) => .ok l f'
  | .fail e (f', _) => .fail e f'

/-- A cloning function with the callback `|src, dest| mapping.push((src, dest))`. -/
def mapping {α : Type} (m : M (F × List (Nat × Nat)) α) : M F (α × List (Nat × Nat)) := fun f =>
  match m (f, []) with
  | .ok a (f', l) => .ok (a, l) f'
  | .fail e (f', _) => .fail e f'

def push (l : List String) (d : String) : Except (List String) (List String) := .ok (l ++ [d])
def pushPair (l : List (Nat × Nat)) (a b : Nat) : Except (List (Nat × Nat)) (List (Nat × Nat)) := .ok (l ++ [(a, b)])

/-! ## Documentation of `Forest` -/

/-- `forest.rs` 136-143, 227-234: a created root has its datum. -/
example : Test.passes (do
    let id ← createRoot "42"
    assertEq (fun f => .ok (f.getData id)) (some "42")) = true := by decide +kernel

/-- `forest.rs` 165-180, 284-298. -/
example : Test.passes (do
    let id ← createRoot "42"
    let node ← theNode id
    assertEq (fun f => f.nodeData node) "42"
    assertEq (fun f => f.parentId node) none) = true := by decide +kernel

/-- `forest.rs` 191-216. -/
example : Test.passes (do
    let id ← createRoot "42"
    let node ← theNode id
    assertEq (fun f => NodeMut.data node f) "42"
    NodeMut.write node "314"
    assertEq (fun f => NodeMut.data node f) "314"
    let _ ← NodeMut.create cap node "141421356" .lastChild
    let node ← theNode id
    assertEq (sibs fun f => f.children node) ["141421356"]) = true := by decide +kernel

/-- `forest.rs` 247-257. -/
example : Test.passes (do
    let id ← createRoot "42"
    assertEq (fun f => .ok (f.getData id)) (some "42")
    let ok ← Forest.setData id "314"
    assert ok
    assertEq (fun f => .ok (f.getData id)) (some "314")) = true := by decide +kernel

/-- `forest.rs` 302-332. -/
example : Test.passes (do
    let _ ← createRoot "42"
    let root ← createRoot "314"
    let node ← theNode root
    assertEq (fun f => f.nodeData node) "314"
    assertEq (fun f => f.parentId node) none
    assertEq (fun f => f.nextSiblingId node) none
    assertEq (fun f => f.prevSiblingId node) none
    assertEq (fun f => f.firstChildId node) none
    assertEq (fun f => f.lastChildId node) none) = true := by decide +kernel

/-- The hidden lines of `forest.rs` 396-409 (and of most other examples): `(root, child_1)`. -/
def sample : M F (Nat × Nat) := chain "root" do
  child "0"; sibling "1"
  let child1 ← currentId
  child "1-0"; sibling "1-1"; sibling "1-2"; up; sibling "2"
  let root ← rootId
  pure (root, child1)

def sampleText : String := lines ["root", "|-- 0", "|-- 1", "|   |-- 1-0", "|   |-- 1-1", "|   `-- 1-2", "`-- 2"]

/-- `forest.rs` 392-432: `InsertAs::NextSiblingOf`. -/
example : Test.passes (do
    let (root, child1) ← sample
    assertEq (text root) sampleText
    let new ← createRoot "new"
    let _ ← Forest.insert new (.nextSiblingOf child1)
    assertEq (text root) (lines ["root", "|-- 0", "|-- 1", "|   |-- 1-0", "|   |-- 1-1", "|   `-- 1-2", "|-- new", "`-- 2"]))
    = true := by decide +kernel

/-- `forest.rs` 437-477: `InsertAs::PreviousSiblingOf`. -/
example : Test.passes (do
    let (root, child1) ← sample
    assertEq (text root) sampleText
    let new ← createRoot "new"
    let _ ← Forest.insert new (.previousSiblingOf child1)
    assertEq (text root) (lines ["root", "|-- 0", "|-- new", "|-- 1", "|   |-- 1-0", "|   |-- 1-1", "|   `-- 1-2", "`-- 2"]))
    = true := by decide +kernel

/-- `forest.rs` 482-522: `InsertAs::FirstChildOf`. -/
example : Test.passes (do
    let (root, child1) ← sample
    assertEq (text root) sampleText
    let new ← createRoot "new"
    let _ ← Forest.insert new (.firstChildOf child1)
    assertEq (text root) (lines ["root", "|-- 0", "|-- 1", "|   |-- new", "|   |-- 1-0", "|   |-- 1-1", "|   `-- 1-2", "`-- 2"]))
    = true := by decide +kernel

/-- `forest.rs` 527-567: `InsertAs::LastChildOf`. -/
example : Test.passes (do
    let (root, child1) ← sample
    assertEq (text root) sampleText
    let new ← createRoot "new"
    let _ ← Forest.insert new (.lastChildOf child1)
    assertEq (text root) (lines ["root", "|-- 0", "|-- 1", "|   |-- 1-0", "|   |-- 1-1", "|   |-- 1-2", "|   `-- new", "`-- 2"]))
    = true := by decide +kernel

/-- `forest.rs` 591-627: `detach`; with the proxy `node.rs` 1086-1124. -/
example : ∀ viaProxy : Bool, Test.passes (do
    let (root, child1) ← sample
    assertEq (text root) sampleText
    if viaProxy then do let node ← theNode child1; NodeMut.detach node else Forest.detach child1
    assertEq (text root) (lines ["root", "|-- 0", "`-- 2"])
    assertEq (text child1) (lines ["1", "|-- 1-0", "|-- 1-1", "`-- 1-2"])) = true := by decide +kernel

/-- `forest.rs` 651-687: `detach_single`; with the proxy `node.rs` 1148-1186. -/
example : ∀ viaProxy : Bool, Test.passes (do
    let (root, child1) ← sample
    assertEq (text root) sampleText
    let _ ← if viaProxy then do let node ← theNode child1; NodeMut.detachSingle node else Forest.detachSingle child1
    assertEq (text root) (lines ["root", "|-- 0", "|-- 1-0", "|-- 1-1", "|-- 1-2", "`-- 2"])
    assertEq (text child1) "1") = true := by decide +kernel

/-- The hidden lines of `forest.rs` 719-735 and `node.rs` 995-1014: `(root, child_1, child_1_1)`. -/
def sample3 : M F (Nat × Nat × Nat) := chain "root" do
  child "0"; sibling "1"
  let child1 ← currentId
  child "1-0"; sibling "1-1"
  let child11 ← currentId
  child "1-1-0"; sibling "1-1-1"; sibling "1-1-2"; up; sibling "1-2"; up; sibling "2"
  let root ← rootId
  pure (root, child1, child11)

def sample3Text : String := lines ["root", "|-- 0", "|-- 1", "|   |-- 1-0", "|   |-- 1-1", "|   |   |-- 1-1-0",
  "|   |   |-- 1-1-1", "|   |   `-- 1-1-2", "|   `-- 1-2", "`-- 2"]
def sample3Removed : String := lines ["root", "|-- 0", "|-- 1", "|   |-- 1-0", "|   `-- 1-2", "`-- 2"]

/-- `forest.rs` 718-764: `remove_hooked_panic_safe`; with the proxy `node.rs` 1217-1265. -/
example : ∀ viaProxy : Bool, Test.passes (do
    let (root, _, child11) ← sample3
    assertEq (text root) sample3Text
    let removed ← if viaProxy then do let node ← theNode child11; pushing (NodeMut.removeHookedPanicSafe push node)
      else pushing (Forest.removeHookedPanicSafe push child11)
    assertEq (text root) sample3Removed
    assert (removed = ["1-1-0", "1-1-1", "1-1-2", "1-1"])) = true := by decide +kernel

/-- `forest.rs` 833-879: `remove_hooked`; with the proxy `node.rs` 1290-1338. -/
example : ∀ viaProxy : Bool, Test.passes (do
    let (root, _, child11) ← sample3
    assertEq (text root) sample3Text
    let removed ← if viaProxy then do let node ← theNode child11; pushing (NodeMut.removeHooked push node)
      else pushing (Forest.removeHooked push child11)
    assertEq (text root) sample3Removed
    assert (removed = ["1-1-0", "1-1-1", "1-1-2", "1-1"])) = true := by decide +kernel

/-- `forest.rs` 931-974: `remove`; with the proxy `node.rs` 1358-1403. -/
example : ∀ viaProxy : Bool, Test.passes (do
    let (root, _, child11) ← sample3
    assertEq (text root) sample3Text
    if viaProxy then do let node ← theNode child11; NodeMut.remove node else Forest.remove child11
    assertEq (text root) sample3Removed) = true := by decide +kernel

/-- `forest.rs` 991-1016, `node.rs` 194-220: `depth_first_traverse`. -/
example : Test.passes (do
    let root ← createRoot "root"
    let child0 ← createInsert "0" (.lastChildOf root)
    let _ ← createInsert "0-0" (.lastChildOf child0)
    let _ ← createInsert "1" (.lastChildOf root)
    let node ← theNode root
    assertEq (dft node) [.opn "root", .opn "0", .opn "0-0", .cls "0-0", .cls "0", .opn "1", .cls "1", .cls "root"])
    = true := by decide +kernel

/-- The forest of `forest.rs` 1033-1070, `node.rs` 231-269: `(root, child0)`. -/
def sampleS : M F (Nat × Nat) := do
  let root ← createRoot "root"
  let child0 ← createInsert "0" (.lastChildOf root)
  let child00 ← createInsert "0-0" (.lastChildOf child0)
  let _ ← createInsert "0-0-0" (.lastChildOf child00)
  let _ ← createInsert "0-1" (.lastChildOf child0)
  let _ ← createInsert "1" (.lastChildOf root)
  pure (root, child0)

/-- `forest.rs` 1033-1070, `node.rs` 231-269: `shallow_depth_first_traverse(Some(2))`. -/
example : Test.passes (do
    let (root, _) ← sampleS
    let node ← theNode root
    assertEq (shallow node (some 2)) [(.opn "root", 0), (.opn "0", 1), (.opn "0-0", 2), (.cls "0-0", 2), (.opn "0-1", 2),
      (.cls "0-1", 2), (.cls "0", 1), (.opn "1", 1), (.cls "1", 1), (.cls "root", 0)]) = true := by decide +kernel

/-- `forest.rs` 1074-1107, `node.rs` 273-307: `shallow_depth_first_traverse(Some(1))` of an inner node. -/
example : Test.passes (do
    let (_, child0) ← sampleS
    let node ← theNode child0
    assertEq (shallow node (some 1)) [(.opn "0", 0), (.opn "0-0", 1), (.cls "0-0", 1), (.opn "0-1", 1),
      (.cls "0-1", 1), (.cls "0", 0)]) = true := by decide +kernel

/-- `forest.rs` 1137-1185, 1208-1256, `node.rs` 331-379, 398-446: both breadth-first iterators. -/
example : Test.passes (do
    let root ← chain "root" do
      child "0"; child "0-0"; child "0-0-0"; up; sibling "0-1"; child "0-1-0"; sibling "0-1-1"; up; up
      sibling "1"; child "1-0"; sibling "1-1"
      rootId
    let expected := [("root", 0), ("0", 1), ("1", 1), ("0-0", 2), ("0-1", 2), ("1-0", 2), ("1-1", 2), ("0-0-0", 3),
      ("0-1-0", 3), ("0-1-1", 3)]
    assertEq (bft root) expected
    assertEq (abft root) expected) = true := by decide +kernel

/-- `forest.rs` 1276-1291, 1304-1319, `node.rs` 457-470, 481-494: `ancestors`, `ancestors_or_self`. -/
example : Test.passes (do
    let root ← createRoot "root"
    let child0 ← createInsert "0" (.lastChildOf root)
    let child00 ← createInsert "0-0" (.lastChildOf child0)
    let node ← theNode child00
    assertEq (ancestors node) ["0", "root"]
    assertEq (ancestorsOrSelf node) ["0-0", "0", "root"]) = true := by decide +kernel

/-- `forest.rs` 1332-1349, `node.rs` 505-520: `children`. -/
example : Test.passes (do
    let root ← createRoot "root"
    let child0 ← createInsert "0" (.lastChildOf root)
    let _ ← createInsert "0-0" (.lastChildOf child0)
    let _ ← createInsert "1" (.lastChildOf root)
    let _ ← createInsert "2" (.lastChildOf root)
    let node ← theNode root
    assertEq (sibs fun f => f.children node) ["0", "1", "2"]) = true := by decide +kernel

/-- `forest.rs` 1362-1378, 1391-1407, `node.rs` 531-547, 558-574: `following_siblings` (`_or_self`). -/
example : Test.passes (do
    let root ← createRoot "root"
    let _ ← createInsert "0" (.lastChildOf root)
    let child1 ← createInsert "1" (.lastChildOf root)
    let _ ← createInsert "2" (.lastChildOf root)
    let node ← theNode child1
    assertEq (sibs fun f => f.followingSiblings node) ["2"]
    assertEq (sibs fun f => f.followingSiblingsOrSelf node) ["1", "2"]) = true := by decide +kernel

/-- `forest.rs` 1423-1449, 1465-1491, `node.rs` 588-613, 627-652: `preceding_siblings` (`_or_self`), also `.rev()`. -/
example : Test.passes (do
    let root ← createRoot "root"
    let _ ← createInsert "0" (.lastChildOf root)
    let _ ← createInsert "1" (.lastChildOf root)
    let child2 ← createInsert "2" (.lastChildOf root)
    let _ ← createInsert "3" (.lastChildOf root)
    let node ← theNode child2
    assertEq (sibs fun f => f.precedingSiblings node) ["0", "1"]
    assertEq (sibsBack fun f => f.precedingSiblings node) ["1", "0"]
    assertEq (sibs fun f => f.precedingSiblingsOrSelf node) ["0", "1", "2"]
    assertEq (sibsBack fun f => f.precedingSiblingsOrSelf node) ["2", "1", "0"]) = true := by decide +kernel

def clonedText : String := lines ["1", "|-- 1-0", "|-- 1-1", "`-- 1-2"]

/-- `forest.rs` 1511-1547: `clone_local_tree`. -/
example : Test.passes (do
    let (root, child1) ← sample
    assertEq (text root) sampleText
    let cloned ← Forest.cloneLocalTree cap some child1
    assertEq (text cloned) clonedText
    let node ← theNode cloned
    assertEq (fun f => f.parentId node) none) = true := by decide +kernel

/-- `forest.rs` 1562-1602: `clone_foreign_tree`; the state is the destination. -/
example : Test.passes (do
    match sample Forest.new with
    | .fail e _ => M.throw e
    | .ok (_, child1) src =>
      let treeSrc ← M.read fun _ => expect (src.node child1) "the node is available"
      let cloned ← Forest.cloneForeignTree cap some src treeSrc
      assertEq (text cloned) clonedText
      let node ← theNode cloned
      assertEq (fun f => f.parentId node) none) = true := by decide +kernel

/-- `forest.rs` 1616-1661: `clone_local_tree_with_id_mapping`. -/
example : Test.passes (do
    let (root, child1) ← sample
    assertEq (text root) sampleText
    let (cloned, l) ← mapping (Forest.cloneLocalTreeWithIdMapping cap some pushPair child1)
    assertEq (text cloned) clonedText
    let node ← theNode cloned
    assertEq (fun f => f.parentId node) none
    assertEq (fun f => .ok (l.map fun p => f.getData p.1)) [some "1", some "1-0", some "1-1", some "1-2"]
    assertEq (fun f => .ok (l.map fun p => f.getData p.2)) [some "1", some "1-0", some "1-1", some "1-2"])
    = true := by decide +kernel

/-- `forest.rs` 1750-1799: `clone_foreign_tree_with_id_mapping`. -/
example : Test.passes (do
    match sample Forest.new with
    | .fail e _ => M.throw e
    | .ok (_, child1) src =>
      let treeSrc ← M.read fun _ => expect (src.node child1) "the node is available"
      let (cloned, l) ← mapping (Forest.cloneForeignTreeWithIdMapping cap some pushPair src treeSrc)
      assertEq (text cloned) clonedText
      let node ← theNode cloned
      assertEq (fun f => f.parentId node) none
      assertEq (fun f => .ok (l.map fun p => decide (src.getData p.1 = f.getData p.2))) [true, true, true, true])
    = true := by decide +kernel

/-! ## Documentation of `NodeMut` (what is not above) -/

/-- `node.rs` 782-960: `NodeMut::create`. -/
example : ∀ c ∈ [(AdoptAs.firstChild, ["root", "|-- 0", "|-- 1", "|   |-- new", "|   |-- 1-0", "|   |-- 1-1", "|   `-- 1-2", "`-- 2"]),
      (AdoptAs.lastChild, ["root", "|-- 0", "|-- 1", "|   |-- 1-0", "|   |-- 1-1", "|   |-- 1-2", "|   `-- new", "`-- 2"]),
      (AdoptAs.previousSibling, ["root", "|-- 0", "|-- new", "|-- 1", "|   |-- 1-0", "|   |-- 1-1", "|   `-- 1-2", "`-- 2"]),
      (AdoptAs.nextSibling, ["root", "|-- 0", "|-- 1", "|   |-- 1-0", "|   |-- 1-1", "|   `-- 1-2", "|-- new", "`-- 2"])],
    Test.passes (do
      let (root, child1) ← sample
      assertEq (text root) sampleText
      let node ← theNode child1
      let _ ← NodeMut.create cap node "new" c.1
      assertEq (text root) (lines c.2)) = true := by decide +kernel

/-- `node.rs` 992-1043: `NodeMut::adopt`. -/
example : Test.passes (do
    let (root, child1, child11) ← sample3
    assertEq (text root) sample3Text
    let node ← theNode child1
    NodeMut.adopt node child11 .nextSibling
    assertEq (text root) (lines ["root", "|-- 0", "|-- 1", "|   |-- 1-0", "|   `-- 1-2", "|-- 1-1", "|   |-- 1-1-0",
      "|   |-- 1-1-1", "|   `-- 1-1-2", "`-- 2"])) = true := by decide +kernel

/-! ## Documentation of the builders -/

/-- `chain_builder.rs` 24-88. -/
example : Test.passes (do
    let root ← chain "root" do
      child "0"; child "0-0"; sibling "0-1"; up; sibling "1"; child "1-0"
      up; child "1-1"; up; sibling "2"
      rootId
    let node ← theNode root
    assertEq (dft node) [.opn "root", .opn "0", .opn "0-0", .cls "0-0", .opn "0-1", .cls "0-1", .cls "0", .opn "1",
      .opn "1-0", .cls "1-0", .opn "1-1", .cls "1-1", .cls "1", .opn "2", .cls "2", .cls "root"]) = true := by
  decide +kernel

/-- `chain_builder.rs` 92-149. -/
example : Test.passes (do
    let root ← chain "root" do
      child "0"; child "0-0"; child "0-0-0"; up; sibling "0-1"; up; sibling "1"; sibling "2"; child "2-0"; up
      sibling "3"
      rootId
    let node ← theNode root
    assertEq (dft node) [.opn "root", .opn "0", .opn "0-0", .opn "0-0-0", .cls "0-0-0", .cls "0-0", .opn "0-1",
      .cls "0-1", .cls "0", .opn "1", .cls "1", .opn "2", .opn "2-0", .cls "2-0", .cls "2", .opn "3", .cls "3",
      .cls "root"]) = true := by
  decide +kernel

/-- `nest_builder.rs` 12-44. -/
example : Test.passes (do
    let root ← nestBuild cap "root" [.createTree "0" [.addChild "0-0", .addChild "0-1"],
      .createTree "1" [.addChild "1-0", .createTree "1-1" [.addChild "1-1-0", .addChild "1-1-1"]], .addChild "2"]
    assertEq (text root) (lines ["root", "|-- 0", "|   |-- 0-0", "|   `-- 0-1", "|-- 1", "|   |-- 1-0", "|   `-- 1-1",
      "|       |-- 1-1-0", "|       `-- 1-1-1", "`-- 2"])) = true := by
  decide +kernel

/-! ## Unit tests of `node.rs` -/

/-- `node.rs` 1444-1501 (`insert`) and 1504-1557 (`adopt`): `unchanged_first_child_of_parent`. -/
example : ∀ viaProxy : Bool, Test.passes (do
    let root ← createRoot "root"
    assertEq (dft root) [.opn "root", .cls "root"]
    let node ← theNode root
    let new ← NodeMut.create cap node "new" .firstChild
    let expected : List (Ev String) := [.opn "root", .opn "new", .cls "new", .cls "root"]
    assertEq (dft root) expected
    if viaProxy then do let node ← theNode root; NodeMut.adopt node new .firstChild
      else expectOk (Forest.insert new (.firstChildOf root))
    assertEq (dft root) expected) = true := by decide +kernel

/-! ## `tests/cyclic.rs` -/

/-- `root` with the children `"0"`, `"1"`, ..., their IDs. -/
def flat (ds : List String) : M F (Nat × List Nat) := do
  let root ← createRoot "root"
  let l ← ds.mapM fun d => createInsert d (.lastChildOf root)
  pure (root, l)

/-- The events of a root with children. -/
def flatEvents (ds : List String) : List (Ev String) :=
  .opn "root" :: ds.flatMap (fun d => [.opn d, .cls d]) ++ [.cls "root"]

/-- Lines 7-34, `prev_sibling_as_next_sibling`. -/
example : Test.passes (do
    let (root, l) ← flat ["0", "1"]
    expectOk (Forest.insert l[0]! (.nextSiblingOf l[1]!))
    assertEq (dft root) (flatEvents ["1", "0"])) = true := by decide +kernel

/-- Lines 39-71, `prev_prev_sibling_as_next_sibling`. -/
example : Test.passes (do
    let (root, l) ← flat ["0", "1", "2"]
    expectOk (Forest.insert l[0]! (.nextSiblingOf l[2]!))
    assertEq (dft root) (flatEvents ["1", "2", "0"])) = true := by decide +kernel

/-- Lines 76-103, `next_sibling_as_prev_sibling`. -/
example : Test.passes (do
    let (root, l) ← flat ["0", "1"]
    expectOk (Forest.insert l[1]! (.previousSiblingOf l[0]!))
    assertEq (dft root) (flatEvents ["1", "0"])) = true := by decide +kernel

/-- Lines 108-140, `next_next_sibling_as_prev_sibling`. -/
example : Test.passes (do
    let (root, l) ← flat ["0", "1", "2"]
    expectOk (Forest.insert l[2]! (.previousSiblingOf l[0]!))
    assertEq (dft root) (flatEvents ["2", "0", "1"])) = true := by decide +kernel

/-- Lines 145-172, `prev_sibling_as_child`. -/
example : Test.passes (do
    let (root, l) ← flat ["0", "1"]
    expectOk (Forest.insert l[0]! (.lastChildOf l[1]!))
    assertEq (dft root) [.opn "root", .opn "1", .opn "0", .cls "0", .cls "1", .cls "root"]) = true := by decide +kernel

/-- Lines 177-204, `next_sibling_as_child`. -/
example : Test.passes (do
    let (root, l) ← flat ["0", "1"]
    expectOk (Forest.insert l[1]! (.lastChildOf l[0]!))
    assertEq (dft root) [.opn "root", .opn "0", .opn "1", .cls "1", .cls "0", .cls "root"]) = true := by decide +kernel

/-- Lines 209-222 and 226-241, `parent_as_child`, `grandparent_as_child`. -/
example : Test.passes (do
    let root ← createRoot "root"
    let d1 ← createInsert "1" (.lastChildOf root)
    let d2 ← createInsert "2" (.lastChildOf d1)
    let r ← Forest.insert d1 (.lastChildOf d2)
    assert (r matches .error .ancestorDescendantLoop)
    let d3 ← createInsert "3" (.lastChildOf d2)
    let r ← Forest.insert d1 (.lastChildOf d3)
    assert (r matches .error .ancestorDescendantLoop)) = true := by decide +kernel

/-! ## `tests/forest-iterators.rs` -/

/-- `sample_tree`, lines 28-51. -/
def sampleTree : M F Nat := chain "root" do
  child "0"; child "0-0"; sibling "0-1"; child "0-1-0"; sibling "0-1-1"; sibling "0-1-2"; up; sibling "0-2"; up
  sibling "1"; sibling "2"; child "2-0"; sibling "2-1"; sibling "2-2"; child "2-2-0"; up; up; sibling "3"
  rootId

/-- `SAMPLE_TREE_DFT_EVENTS`, lines 53-84. -/
def sampleTreeEvents : List (Ev String) :=
  [.opn "root", .opn "0", .opn "0-0", .cls "0-0", .opn "0-1", .opn "0-1-0", .cls "0-1-0", .opn "0-1-1", .cls "0-1-1",
   .opn "0-1-2", .cls "0-1-2", .cls "0-1", .opn "0-2", .cls "0-2", .cls "0", .opn "1", .cls "1", .opn "2", .opn "2-0",
   .cls "2-0", .opn "2-1", .cls "2-1", .opn "2-2", .opn "2-2-0", .cls "2-2-0", .cls "2-2", .cls "2", .opn "3", .cls "3",
   .cls "root"]

/-- `to_content_and_depth`, lines 86-101. -/
def withDepth : Nat → List (Ev String) → List (Ev String × Nat)
  | _, [] => []
  | d, .opn x :: l => (.opn x, d) :: withDepth (d + 1) l
  | d, .cls x :: l => (.cls x, d - 1) :: withDepth (d - 1) l

/-- Lines 104-129, `dft_forward`, `dft_backward`. -/
example : Test.passes (do
    let root ← sampleTree
    assertEq (dft root) sampleTreeEvents
    assertEq (fun f => (dftBack root f).map List.reverse) sampleTreeEvents) = true := by decide +kernel

/-- Lines 132-169, `shallow_dft_forward_with_limit`, `shallow_dft_backward_with_limit`. -/
example : ∀ maxDepth < 4, Test.passes (do
    let root ← sampleTree
    let expected := (withDepth 0 sampleTreeEvents).filter fun p => p.2 ≤ maxDepth
    assertEq (shallow root (some maxDepth)) expected
    assertEq (fun f => (shallowBack root (some maxDepth) f).map List.reverse) expected) = true := by decide +kernel

/-- Lines 172-199, `shallow_dft_forward_without_limit`, `shallow_dft_backward_without_limit`. -/
example : Test.passes (do
    let root ← sampleTree
    assertEq (shallow root none) (withDepth 0 sampleTreeEvents)
    assertEq (fun f => (shallowBack root none f).map List.reverse) (withDepth 0 sampleTreeEvents)) = true := by
  decide +kernel

/-- A test that must not pass: the expected text of another example. -/
example : Test.passes (do
    let (root, _, child11) ← sample3
    Forest.remove child11
    assertEq (text root) sample3Text) = false := by decide +kernel

end RepoTests
end Treena
