import Verif.Model.Forest
/-!
# Model: copying when `T::clone` has side effects

`Model/Forest.lean` takes `T::clone` to be a function of the cloned value.  Here it is an arbitrary computation: it may read and
change the state `S` of the rest of the program (counters, logs, …), which it shares with the callback `add_mapping`,
and it may panic.  `Forest.pureClone` embeds the former.

The fuel of the loops is that of `Model/Forest.lean` plus twice the size of the source arena.
-/
set_option autoImplicit false

namespace Treena
namespace Forest
variable {T S : Type}

/-- `T::clone` with effects. -/
abbrev CloneFn (S T : Type) := S → T → Except S (T × S)

/-- `T::clone` without effects. -/
def pureClone (cl : T → Option T) : CloneFn S T := fun s d =>
  match cl d with
  | some c => .ok (c, s)
  | none => .error s

/-- A call of `T::clone`. -/
def callClone (cl : CloneFn S T) (d : T) : M (Forest T × S) T := fun (f, s) =>
  match cl s d with
  | .ok (c, s') => .ok c (f, s')
  | .error s' => .fail (.panic "T::clone panicked") (f, s')

/-- `data.get(src_id)` and the two `expect`s, `forest.rs` 1682-1686 and 1826-1830 (the `cloned()` in between is
`callClone`; it does not call `T::clone` for a `None`). -/
def sourceData (data : List (Option T)) (src : Nat) : R T :=
  match expect (data[src]?) "[consistency] the node being traversed must be alive" with
  | .error e => .error e
  | .ok o => expect o "[consistency] the node being traversed must be alive"

/-- `clone_next_node`, `forest.rs` 1673-1708 and 1815-1858. -/
def cloneNextNodeE {τ : Type} (cap : Nat) (cl : CloneFn S T) (src : CloneSrc T τ) :
    Nat → Nat → τ → M (Forest T × S) (Option Nat × Nat × τ)
  | 0, _, _ => M.throw .diverge
  | fuel + 1, cur, tr => do
    let (ev, tr') ← M.read fun p => src.next p.1 tr
    match ev with
    | none => M.panic "[consistency] traversal must end with the closing of the root node"
    | some (.opn srcId) => do
      let d ← M.read fun p => sourceData (src.data p.1) srcId
      let c ← callClone cl d
      let cur' ← onForest (createInsertMomo cap c (.lastChildOf cur))
      pure (some srcId, cur', tr')
    | some (.cls _) => do
      let nb ← onForest (onHier (Hier.nbrOf cur "[consistency] the node being created must be alive"))
      let p ← M.read fun _ => nb.getParent
      match p with
      | some id => cloneNextNodeE cap cl src fuel id tr'
      | none => pure (none, cur, tr')

/-- The `while` loop, `forest.rs` 1723-1730 and 1872-1881. -/
def cloneLoopE {τ : Type} (cap : Nat) (cl : CloneFn S T) (src : CloneSrc T τ) (hook : MapHook S)
    (innerFuel : Nat) : Nat → Nat → τ → M (Forest T × S) (Nat × τ)
  | 0, _, _ => M.throw .diverge
  | fuel + 1, cur, tr => do
    let (o, cur', tr') ← cloneNextNodeE cap cl src innerFuel cur tr
    match o with
    | none => pure (cur', tr')
    | some srcId => do
      callMap hook srcId cur'
      cloneLoopE cap cl src hook innerFuel fuel cur' tr'

/-- `Forest::clone_local_tree_with_id_mapping`, `forest.rs` 1663-1739. -/
def cloneLocalTreeWithIdMappingE (cap : Nat) (cl : CloneFn S T) (hook : MapHook S)
    (srcId : Nat) : M (Forest T × S) Nat := do
  let n ← M.read fun p => .ok p.1.hier.nbrs.length
  let d ← M.read fun p => expect (p.1.getData srcId) "[consistency] the node must be alive"
  let c ← callClone cl d
  let rootId ← onForest (createRoot cap c)
  callMap hook srcId rootId
  let tr ← M.read fun p => Safe.new srcId p.1.hier
  let (_, tr) ← M.read fun p => Safe.next p.1.hier tr
  let (cur, _) ← cloneLoopE cap cl localSrc hook (cloneFuel cap cap + 2 * n) (cap + 1 + 2 * n) rootId tr
  if cur ≠ rootId then
    M.panic "[consistency] all nodes including the root must have been closed"
  else pure rootId

/-- `Forest::clone_foreign_tree_with_id_mapping`, `forest.rs` 1801-1895. -/
def cloneForeignTreeWithIdMappingE (cap : Nat) (cl : CloneFn S T) (hook : MapHook S)
    (fsrc : Forest T) (srcRoot : Nat) : M (Forest T × S) Nat := do
  let d ← M.read fun _ =>
    expect (fsrc.getData srcRoot) "[validity] the node has been checked to be alive"
  let c ← callClone cl d
  let rootId ← onForest (createRoot cap c)
  callMap hook srcRoot rootId
  let tr ← M.read fun _ => Dft.withToplevel srcRoot fsrc.hier
  let (_, tr) ← M.read fun _ => Dft.next fsrc.hier tr
  let (cur, tr) ← cloneLoopE cap cl (foreignSrc fsrc) hook
    (cloneFuel cap fsrc.hier.nbrs.length + 2 * fsrc.hier.nbrs.length) (cap + 1 + 2 * fsrc.hier.nbrs.length) rootId tr
  if cur ≠ rootId then
    M.panic "[consistency] traversal must end with the closing of the destination root node"
  else do
    let (last, _) ← M.read fun _ => Dft.next fsrc.hier tr
    if last ≠ none then
      M.panic "[consistency] traversal must also end with the closing of the source root node"
    else pure rootId

/-- `Vec<Option<T>>::clone`: element by element. -/
def cloneDataE (cl : CloneFn S T) : S → List (Option T) → Except S (List (Option T) × S)
  | s, [] => .ok ([], s)
  | s, none :: l =>
    match cloneDataE cl s l with
    | .ok (l', s') => .ok (none :: l', s')
    | .error s' => .error s'
  | s, some d :: l =>
    match cl s d with
    | .error s' => .error s'
    | .ok (c, s1) =>
      match cloneDataE cl s1 l with
      | .ok (l', s') => .ok (some c :: l', s')
      | .error s' => .error s'

/-- `Forest::clone` (`#[derive(Clone)]`, `forest.rs` 116). -/
def cloneE (cl : CloneFn S T) (s : S) (f : Forest T) : Except S (Forest T × S) :=
  match cloneDataE cl s f.data with
  | .ok (l, s') => .ok (⟨f.hier, l⟩, s')
  | .error s' => .error s'

end Forest
end Treena
