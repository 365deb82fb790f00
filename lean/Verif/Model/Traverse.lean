import Verif.Model.Hierarchy
/-!
# Model of `src/dynamic/hierarchy/traverse.rs`

A traverser is a state; `next h st` returns the emitted item and the new state.
The public iterators of `src/dynamic/forest/traverse.rs` only wrap these (see `Model/Forest.lean`).
-/

set_option autoImplicit false

namespace Treena

/-- `enum DftEvent`, `traverse.rs` 9-16. -/
inductive Ev (α : Type) where
  | opn (a : α)
  | cls (a : α)
deriving DecidableEq, Repr

/-- Node of an event. -/
def Ev.node {α : Type} : Ev α → α
  | .opn a => a
  | .cls a => a

/-- `DftEvent::map` / `from_hierarchy_dft_event`, `src/dynamic/forest/traverse.rs` 21-44. -/
def Ev.map {α β : Type} (f : α → β) : Ev α → Ev β
  | .opn a => .opn (f a)
  | .cls a => .cls (f a)

/-- `hier.neighbors(id).expect("[consistency] the node being traversed must be alive")`. -/
def travNbr (h : Hier) (id : Nat) : R Neighbors :=
  expect (h.neighbors id) "[consistency] the node being traversed must be alive"

/-! ### `DepthFirstTraverser`, `traverse.rs` 18-159 -/
namespace Dft

/-- `DepthFirstTraverser { next }`. -/
abbrev St := Option (Ev Nat × Ev Nat)

/-- `with_toplevel`, `traverse.rs` 26-42. -/
def withToplevel (id : Nat) (h : Hier) : R St :=
  if !h.isAlive id then .error (.panic "[precondition] the node to be traversed must be alive")
  else .ok (some (.opn id, .cls id))

/-- The match of `next_of_next_forward`, `traverse.rs` 79-107 (for `next != next_back`). -/
def stepFwd (h : Hier) (e : Ev Nat) : R (Option (Ev Nat)) :=
  match e with
  | .opn id =>
    match travNbr h id with
    | .error e => .error e
    | .ok nb =>
      match nb.firstChild with
      | .error e => .error e
      | .ok (some c) => .ok (some (.opn c))
      | .ok none => .ok (some (.cls id))
  | .cls id =>
    match travNbr h id with
    | .error e => .error e
    | .ok nb =>
      match nb.nextSibling with
      | .error e => .error e
      | .ok (some s) => .ok (some (.opn s))
      | .ok none =>
        match nb.getParent with
        | .error e => .error e
        | .ok po =>
          match expect po "[consistency] parent node must exist since the node is not the root" with
          | .error e => .error e
          | .ok p => .ok (some (.cls p))

/-- The match of `next_of_next_backward`, `traverse.rs` 117-145 (for `next != next_back`). -/
def stepBack (h : Hier) (e : Ev Nat) : R (Option (Ev Nat)) :=
  match e with
  | .cls id =>
    match travNbr h id with
    | .error e => .error e
    | .ok nb =>
      match nb.lastChild h with
      | .error e => .error e
      | .ok (some c) => .ok (some (.cls c))
      | .ok none => .ok (some (.opn id))
  | .opn id =>
    match travNbr h id with
    | .error e => .error e
    | .ok nb =>
      match nb.prevSibling h with
      | .error e => .error e
      | .ok (some s) => .ok (some (.cls s))
      | .ok none =>
        match nb.getParent with
        | .error e => .error e
        | .ok po =>
          match expect po "[consistency] parent node must exist since the node is not the root" with
          | .error e => .error e
          | .ok p => .ok (some (.opn p))

end Dft

/-- Common body of the double-ended `next` methods, `traverse.rs` 44-56 (`DepthFirstTraverser`),
281-293 (`SiblingsTraverser`), 485-497 (`ShallowDepthFirstTraverser`), together with the
`next == next_back` test at the start of each `next_of_next_forward` (73-78, 310-315, 514-519).
`stepF` is the rest of `next_of_next_forward`. -/
def deNext {ε : Type} [DecidableEq ε] (stepF : ε → R (Option ε)) (st : Option (ε × ε)) :
    R (Option ε × Option (ε × ε)) :=
  match st with
  | none => .ok (none, none)
  | some (nxt, back) =>
    if nxt = back then .ok (some nxt, none)
    else
      match stepF nxt with
      | .error e => .error e
      | .ok (some nn) => .ok (some nxt, some (nn, back))
      | .ok none => .ok (some nxt, none)

/-- Common body of the double-ended `next_back` methods, `traverse.rs` 58-70, 295-307, 499-511,
with the test at the start of `next_of_next_backward` (111-116, 323-328, 558-563). -/
def deNextBack {ε : Type} [DecidableEq ε] (stepB : ε → R (Option ε)) (st : Option (ε × ε)) :
    R (Option ε × Option (ε × ε)) :=
  match st with
  | none => .ok (none, none)
  | some (nxt, back) =>
    if nxt = back then .ok (some back, none)
    else
      match stepB back with
      | .error e => .error e
      | .ok (some nn) => .ok (some back, some (nxt, nn))
      | .ok none => .ok (some back, none)

namespace Dft

/-- `DepthFirstTraverser::next`, `traverse.rs` 44-56, 72-108. -/
def next (h : Hier) (st : St) : R (Option (Ev Nat) × St) := deNext (stepFwd h) st
/-- `DepthFirstTraverser::next_back`, `traverse.rs` 58-70, 110-146. -/
def nextBack (h : Hier) (st : St) : R (Option (Ev Nat) × St) := deNextBack (stepBack h) st
/-- `DepthFirstTraverser::peek`, `traverse.rs` 148-152. -/
def peek (st : St) : Option (Ev Nat) := st.map (·.1)
/-- `DepthFirstTraverser::peek_back`, `traverse.rs` 154-158. -/
def peekBack (st : St) : Option (Ev Nat) := st.map (·.2)

end Dft

/-! ### `SiblingsTraverser`, `traverse.rs` 207-346 -/
namespace Siblings

/-- `SiblingsTraverser { next }`. -/
abbrev St := Option (Nat × Nat)

/-- `with_parent`, `traverse.rs` 215-229. -/
def withParent (parent : Nat) (h : Hier) : R St :=
  match expect (h.neighbors parent) "[precondition] the node being traversed must be alive" with
  | .error e => .error e
  | .ok nb => nb.firstLastChild h

/-- `with_first_sibling`, `traverse.rs` 231-254. -/
def withFirstSibling (first : Nat) (h : Hier) : R St :=
  match expect (h.neighbors first) "[precondition] the node being traversed must be alive" with
  | .error e => .error e
  | .ok nb =>
    match nb.getParent with
    | .error e => .error e
    | .ok parent =>
      match parent.bind fun p => h.neighbors p with
      | none => .ok (some (first, first))
      | some pnb =>
        match pnb.lastChild h with
        | .error e => .error e
        | .ok lo =>
          match expect lo "[consistency] the parent must have children `first`" with
          | .error e => .error e
          | .ok last => .ok (some (first, last))

/-- `with_last_sibling`, `traverse.rs` 256-279. -/
def withLastSibling (last : Nat) (h : Hier) : R St :=
  match expect (h.neighbors last) "[precondition] the node being traversed must be alive" with
  | .error e => .error e
  | .ok nb =>
    match nb.getParent with
    | .error e => .error e
    | .ok parent =>
      match parent.bind fun p => h.neighbors p with
      | none => .ok (some (last, last))
      | some pnb =>
        match pnb.firstChild with
        | .error e => .error e
        | .ok fo =>
          match expect fo "[consistency] the parent must have children `last`" with
          | .error e => .error e
          | .ok first => .ok (some (first, last))

/-- Tail of `next_of_next_forward`, `traverse.rs` 316-319. -/
def stepFwd (h : Hier) (n : Nat) : R (Option Nat) :=
  match travNbr h n with
  | .error e => .error e
  | .ok nb => nb.nextSibling

/-- Tail of `next_of_next_backward`, `traverse.rs` 329-332. -/
def stepBack (h : Hier) (n : Nat) : R (Option Nat) :=
  match travNbr h n with
  | .error e => .error e
  | .ok nb => nb.prevSibling h

/-- `SiblingsTraverser::next`, `traverse.rs` 281-293, 309-320. -/
def next (h : Hier) (st : St) : R (Option Nat × St) := deNext (stepFwd h) st
/-- `SiblingsTraverser::next_back`, `traverse.rs` 295-307, 322-333. -/
def nextBack (h : Hier) (st : St) : R (Option Nat × St) := deNextBack (stepBack h) st
/-- `SiblingsTraverser::peek`, `traverse.rs` 335-339. -/
def peek (st : St) : Option Nat := st.map (·.1)
/-- `SiblingsTraverser::peek_back`, `traverse.rs` 341-345. -/
def peekBack (st : St) : Option Nat := st.map (·.2)

end Siblings

/-! ### `SafeModeDepthFirstTraverser`, `traverse.rs` 348-436 -/
namespace Safe

/-- `SafeModeDepthFirstTraverser { next, root }`, `traverse.rs` 358-364. -/
structure St where
  next : Option (Ev Nat)
  root : Nat
deriving DecidableEq, Repr

/-- `new`, `traverse.rs` 367-384. -/
def new (root : Nat) (h : Hier) : R St :=
  if !h.isAlive root then .error (.panic "[precondition] the node to be traversed must be alive")
  else .ok { next := some (.opn root), root := root }

/-- `next_of_next`, `traverse.rs` 393-435, for `self.next == Some(next)`. -/
def nextOfNext (h : Hier) (root : Nat) (next : Ev Nat) : R (Option (Ev Nat)) :=
  if next = .cls root then .ok none else
  match next with
  | .opn id =>
    match expect (h.neighbors id) "[consistency] the current node must be alive" with
    | .error e => .error e
    | .ok nb =>
      match nb.firstChild with
      | .error e => .error e
      | .ok (some c) => .ok (some (.opn c))
      | .ok none => .ok (some (.cls id))
  | .cls id =>
    match expect (h.neighbors id) "[consistency] the current node must be alive" with
    | .error e => .error e
    | .ok nb =>
      match nb.nextSibling with
      | .error e => .error e
      | .ok (some s) => .ok (some (.opn s))
      | .ok none =>
        -- debug_assert_ne!, lines 421-424
        if id = root then
          .error (.panic "[consistency] closing of the root must have been handled specially")
        else
          match nb.getParent with
          | .error e => .error e
          | .ok po =>
            match expect po "[consistency] parent node must exist since the node is not the root" with
            | .error e => .error e
            | .ok p => .ok (some (.cls p))

/-- `next`, `traverse.rs` 386-391. -/
def next (h : Hier) (st : St) : R (Option (Ev Nat) × St) :=
  match st.next with
  | none => .ok (none, st)
  | some n =>
    match nextOfNext h st.root n with
    | .error e => .error e
    | .ok nn => .ok (some n, { st with next := nn })

end Safe

/-! ### `ShallowDepthFirstTraverser`, `traverse.rs` 438-612

`um` is `usize::MAX`.  Depths are natural numbers: `next_depth + 1` cannot overflow since a depth is
smaller than the number of nodes, which is at most `usize::MAX` (`Shallow` theorems give the bound);
`next_depth - 1` at `0` is modelled as the debug-mode overflow panic. -/
namespace Shallow

/-- `ShallowDepthFirstTraverser { next, max_depth }`, `traverse.rs` 438-446. -/
structure St where
  next : Option ((Ev Nat × Nat) × (Ev Nat × Nat))
  maxDepth : Option Nat
deriving DecidableEq, Repr

/-- `max_depth.and_then(NonMaxUsize::new)`, `traverse.rs` 466-470, `src/nonmax.rs` 42-47. -/
def collapseMax (um : Nat) (maxDepth : Option Nat) : Option Nat :=
  maxDepth.bind fun d => if d < um then some d else none

/-- `with_toplevel_and_max_depth`, `traverse.rs` 449-476. -/
def withToplevelAndMaxDepth (um : Nat) (id : Nat) (h : Hier) (maxDepth : Option Nat) : R St :=
  if !h.isAlive id then .error (.panic "[precondition] the node to be traversed must be alive")
  else .ok { next := some ((.opn id, 0), (.cls id, 0)), maxDepth := collapseMax um maxDepth }

/-- `next_depth - 1` on `usize` with overflow checks. -/
def depthPred (d : Nat) : R Nat :=
  match d with
  | 0 => .error (.panic "attempt to subtract with overflow")
  | d + 1 => .ok d

/-- Tail of `next_of_next_forward`, `traverse.rs` 521-554. -/
def stepFwd (h : Hier) (maxDepth : Option Nat) (e : Ev Nat × Nat) : R (Option (Ev Nat × Nat)) :=
  match e with
  | (.opn id, d) =>
    if some d = maxDepth then .ok (some (.cls id, d)) else
    match travNbr h id with
    | .error e => .error e
    | .ok nb =>
      match nb.firstChild with
      | .error e => .error e
      | .ok (some c) => .ok (some (.opn c, d + 1))
      | .ok none => .ok (some (.cls id, d))
  | (.cls id, d) =>
    match travNbr h id with
    | .error e => .error e
    | .ok nb =>
      match nb.nextSibling with
      | .error e => .error e
      | .ok (some s) => .ok (some (.opn s, d))
      | .ok none =>
        match nb.getParent with
        | .error e => .error e
        | .ok po =>
          match expect po "[consistency] parent node must exist since the node is not the root" with
          | .error e => .error e
          | .ok p =>
            match depthPred d with
            | .error e => .error e
            | .ok d' => .ok (some (.cls p, d'))

/-- Tail of `next_of_next_backward`, `traverse.rs` 565-598. -/
def stepBack (h : Hier) (maxDepth : Option Nat) (e : Ev Nat × Nat) : R (Option (Ev Nat × Nat)) :=
  match e with
  | (.cls id, d) =>
    if some d = maxDepth then .ok (some (.opn id, d)) else
    match travNbr h id with
    | .error e => .error e
    | .ok nb =>
      match nb.lastChild h with
      | .error e => .error e
      | .ok (some c) => .ok (some (.cls c, d + 1))
      | .ok none => .ok (some (.opn id, d))
  | (.opn id, d) =>
    match travNbr h id with
    | .error e => .error e
    | .ok nb =>
      match nb.prevSibling h with
      | .error e => .error e
      | .ok (some s) => .ok (some (.cls s, d))
      | .ok none =>
        match nb.getParent with
        | .error e => .error e
        | .ok po =>
          match expect po "[consistency] parent node must exist since the node is not the root" with
          | .error e => .error e
          | .ok p =>
            match depthPred d with
            | .error e => .error e
            | .ok d' => .ok (some (.opn p, d'))

/-- `next`, `traverse.rs` 485-497, 513-555. -/
def next (h : Hier) (st : St) : R (Option (Ev Nat × Nat) × St) :=
  match deNext (stepFwd h st.maxDepth) st.next with
  | .error e => .error e
  | .ok (o, n) => .ok (o, { st with next := n })
/-- `next_back`, `traverse.rs` 499-511, 557-599. -/
def nextBack (h : Hier) (st : St) : R (Option (Ev Nat × Nat) × St) :=
  match deNextBack (stepBack h st.maxDepth) st.next with
  | .error e => .error e
  | .ok (o, n) => .ok (o, { st with next := n })
/-- `peek`, `traverse.rs` 601-605. -/
def peek (st : St) : Option (Ev Nat × Nat) := st.next.map (·.1)
/-- `peek_back`, `traverse.rs` 607-611. -/
def peekBack (st : St) : Option (Ev Nat × Nat) := st.next.map (·.2)

end Shallow

/-! ### `BreadthFirstTraverser`, `traverse.rs` 614-691 -/
namespace Bft

/-- `BreadthFirstTraverser { inner, root, current_depth }`, `traverse.rs` 620-630. -/
structure St where
  inner : Shallow.St
  root : Option Nat
  depth : Nat
deriving DecidableEq, Repr

/-- `with_toplevel`, `traverse.rs` 633-651. -/
def withToplevel (um : Nat) (id : Nat) (h : Hier) : R St :=
  if !h.isAlive id then .error (.panic "[precondition] the node to be traversed must be alive")
  else
    match Shallow.withToplevelAndMaxDepth um id h (some 0) with
    | .error e => .error e
    | .ok inner => .ok { inner := inner, root := some id, depth := 0 }

/-- `next_inner`, `traverse.rs` 679-690: the loop, on the inner traverser. -/
def nextInner (h : Hier) (depth : Nat) : Nat → Shallow.St → R (Option Nat × Shallow.St)
  | 0, _ => .error .diverge
  | fuel + 1, inner =>
    match Shallow.next h inner with
    | .error e => .error e
    | .ok (none, inner') => .ok (none, inner')
    | .ok (some (ev, d), inner') =>
      if d = depth then
        match ev with
        | .opn id => .ok (some id, inner')
        | .cls _ => nextInner h depth fuel inner'
      else nextInner h depth fuel inner'

/-- Fuel for the loop of `next_inner`: more than the number of states of the inner traverser, so that exhausted
fuel means an endless loop (`nextInner_fuel`). -/
def fuel (h : Hier) (depth : Nat) : Nat := 2 * (h.nbrs.length + 1) * (depth + 1) + 2

/-- `next`, `traverse.rs` 653-677. -/
def next (um : Nat) (h : Hier) (st : St) : R (Option (Nat × Nat) × St) :=
  match st.root with
  | none => .ok (none, st)
  | some root =>
    match nextInner h st.depth (fuel h st.depth) st.inner with
    | .error e => .error e
    | .ok (some id, inner') => .ok (some (id, st.depth), { st with inner := inner' })
    | .ok (none, _) =>
      let depth := st.depth + 1
      match Shallow.withToplevelAndMaxDepth um root h (some depth) with
      | .error e => .error e
      | .ok inner1 =>
        match nextInner h depth (fuel h depth) inner1 with
        | .error e => .error e
        | .ok (some id, inner') =>
          .ok (some (id, depth), { inner := inner', root := some root, depth := depth })
        | .ok (none, inner') =>
          .ok (none, { inner := inner', root := none, depth := depth })

end Bft

/-! ### `AllocatingBreadthFirstTraverser`, `traverse.rs` 693-806 -/
namespace ABft

/-- `enum BftQueuedEvent`, `traverse.rs` 693-703. -/
inductive QEv where
  | node (id : Nat)
  | incrementDepth
deriving DecidableEq, Repr

/-- `AllocatingBreadthFirstTraverser { events, current_depth }`, `traverse.rs` 705-716;
the `VecDeque` is a list, front first. -/
structure St where
  events : List QEv
  depth : Nat
deriving DecidableEq, Repr

/-- `with_toplevel`, `traverse.rs` 719-739. -/
def withToplevel (id : Nat) (h : Hier) : R St :=
  if !h.isAlive id then .error (.panic "[precondition] the node to be traversed must be alive")
  else .ok { events := [.node id, .incrementDepth], depth := 0 }

/-- Inner loop `traverse.rs` 761-771: push the children chain starting at `nextChild`. -/
def pushChildren (h : Hier) : Nat → Option Nat → List QEv → R (List QEv)
  | _, none, q => .ok q
  | 0, some _, _ => .error .diverge
  | fuel + 1, some child, q =>
    match expect (h.neighbors child) "[consistency] the node to be traversed must be alive" with
    | .error e => .error e
    | .ok nb =>
      match nb.nextSibling with
      | .error e => .error e
      | .ok n => pushChildren h fuel n (q ++ [.node child])

/-- Outer loop `traverse.rs` 743-777. -/
def nextLoop (h : Hier) : Nat → St → R (Option (Nat × Nat) × St)
  | 0, _ => .error .diverge
  | fuel + 1, st =>
    match st.events with
    | [] => .ok (none, st)
    | .incrementDepth :: rest =>
      if rest.isEmpty then .ok (none, { st with events := [] })
      else nextLoop h fuel { events := rest ++ [.incrementDepth], depth := st.depth + 1 }
    | .node id :: rest =>
      match expect (h.neighbors id) "[consistency] the node to be traversed must be alive" with
      | .error e => .error e
      | .ok nb =>
        match nb.firstChild with
        | .error e => .error e
        | .ok fc =>
          match pushChildren h h.loopFuel fc rest with
          | .error e => .error e
          | .ok q => .ok (some (id, st.depth), { st with events := q })

/-- `next`, `traverse.rs` 741-778. A queue with at most one `IncrementDepth` needs at most two
iterations; exhausted fuel means an endless loop (`nextLoop_fuel`). -/
def next (h : Hier) (st : St) : R (Option (Nat × Nat) × St) :=
  nextLoop h (st.events.length + 2) st

/-- `size_hint`, `traverse.rs` 780-790. -/
def sizeHint (st : St) : Nat × Option Nat :=
  if st.events.length ≤ 1 then (0, some 0) else (st.events.length - 1, none)

/-- `peek`, `traverse.rs` 792-805. -/
def peek (st : St) : R (Option (Nat × Nat)) :=
  match st.events with
  | [] => .ok none
  | .node n :: _ => .ok (some (n, st.depth))
  | .incrementDepth :: rest =>
    match rest with
    | [] => .ok none
    | .node n :: _ => .ok (some (n, st.depth + 1))
    | .incrementDepth :: _ =>
      .error (.panic "[consistency] `IncrementDepth` must not appear right after `IncrementDepth`")

end ABft

end Treena
