import Verif.Model.Forest
/-!
# Instrumented breadth-first iterators

The documentation promises complexities for the two breadth-first iterators (`traverse.rs` 618-619, 707;
`forest.rs` 114-115, 1123, `node.rs` 320, `forest/traverse.rs` 365-366, 408).  Here the functions of `Model/Traverse.lean`
are written once more, each returning the number of steps it took beside its result.  A step is one of

* a call of `next` of the iterator (its straight-line part, including the making of the `Node` handle),
* a call of `next` of the inner depth-first traverser (straight-line code with at most one table lookup),
* the making of a new inner traverser,
* taking an event from the queue, putting an event into the queue (constant amortised time for a `VecDeque`),
* a table lookup by the allocating traverser.

All loops of the modelled functions are loops over such steps.  Forgetting the count gives the functions of
`Model/Traverse.lean` and `Model/Forest.lean` back (`C64_same_iterators`).  A panic carries no count. -/

set_option autoImplicit false

namespace Treena

/-- Result and number of steps. -/
abbrev Counted (α : Type) := R (α × Nat)

/-- `n` steps before the rest. -/
def Counted.after {α : Type} (n : Nat) (r : Counted α) : Counted α :=
  match r with
  | .error e => .error e
  | .ok (a, k) => .ok (a, n + k)

namespace Bft

/-- `next_inner`, `traverse.rs` 679-690, one step per call of `self.inner.next`. -/
def nextInnerC (h : Hier) (depth : Nat) : Nat → Shallow.St → Counted (Option Nat × Shallow.St)
  | 0, _ => .error .diverge
  | fuel + 1, inner =>
    match Shallow.next h inner with
    | .error e => .error e
    | .ok (none, inner') => .ok ((none, inner'), 1)
    | .ok (some (ev, d), inner') =>
      if d = depth then
        match ev with
        | .opn id => .ok ((some id, inner'), 1)
        | .cls _ => Counted.after 1 (nextInnerC h depth fuel inner')
      else Counted.after 1 (nextInnerC h depth fuel inner')

/-- `next`, `traverse.rs` 653-677; one step for the inner traverser made in lines 662-666. -/
def nextC (um : Nat) (h : Hier) (st : St) : Counted (Option (Nat × Nat) × St) :=
  match st.root with
  | none => .ok ((none, st), 0)
  | some root =>
    match nextInnerC h st.depth (fuel h st.depth) st.inner with
    | .error e => .error e
    | .ok ((some id, inner'), k) => .ok ((some (id, st.depth), { st with inner := inner' }), k)
    | .ok ((none, _), k) =>
      let depth := st.depth + 1
      match Shallow.withToplevelAndMaxDepth um root h (some depth) with
      | .error e => .error e
      | .ok inner1 =>
        match nextInnerC h depth (fuel h depth) inner1 with
        | .error e => .error e
        | .ok ((some id, inner'), k') =>
          .ok ((some (id, depth), { inner := inner', root := some root, depth := depth }), k + 1 + k')
        | .ok ((none, inner'), k') =>
          .ok ((none, { inner := inner', root := none, depth := depth }), k + 1 + k')

end Bft

namespace ABft

/-- Inner loop `traverse.rs` 761-771: per child, it is put into the queue and its record is looked up. -/
def pushChildrenC (h : Hier) : Nat → Option Nat → List QEv → Counted (List QEv)
  | _, none, q => .ok (q, 0)
  | 0, some _, _ => .error .diverge
  | fuel + 1, some child, q =>
    match expect (h.neighbors child) "[consistency] the node to be traversed must be alive" with
    | .error e => .error e
    | .ok nb =>
      match nb.nextSibling with
      | .error e => .error e
      | .ok n => Counted.after 2 (pushChildrenC h fuel n (q ++ [.node child]))

/-- Outer loop `traverse.rs` 743-777: an event is taken from the queue; `IncrementDepth` is put back, for a node
its record is looked up. -/
def nextLoopC (h : Hier) : Nat → St → Counted (Option (Nat × Nat) × St)
  | 0, _ => .error .diverge
  | fuel + 1, st =>
    match st.events with
    | [] => .ok ((none, st), 0)
    | .incrementDepth :: rest =>
      if rest.isEmpty then .ok ((none, { st with events := [] }), 1)
      else Counted.after 2 (nextLoopC h fuel { events := rest ++ [.incrementDepth], depth := st.depth + 1 })
    | .node id :: rest =>
      match expect (h.neighbors id) "[consistency] the node to be traversed must be alive" with
      | .error e => .error e
      | .ok nb =>
        match nb.firstChild with
        | .error e => .error e
        | .ok fc =>
          match pushChildrenC h h.loopFuel fc rest with
          | .error e => .error e
          | .ok (q, k) => .ok ((some (id, st.depth), { st with events := q }), 2 + k)

/-- `next`, `traverse.rs` 741-778. -/
def nextC (h : Hier) (st : St) : Counted (Option (Nat × Nat) × St) :=
  nextLoopC h (st.events.length + 2) st

end ABft

namespace Forest
variable {T : Type}

/-- `emit` of `Model/Forest.lean` on a counted result; the call of `next` itself is one step. -/
def emitC {ι σ : Type} (f : Forest T) (idOf : ι → Nat) (r : Counted (Option ι × σ)) : Counted (Option ι × σ) :=
  match r with
  | .error e => .error e
  | .ok (p, k) =>
    match f.emit idOf (.ok p) with
    | .error e => .error e
    | .ok p' => .ok (p', 1 + k)

/-- `BreadthFirstTraverse::next`, `forest/traverse.rs` 395-403. -/
def bftNextC (um : Nat) (f : Forest T) (st : Bft.St) : Counted (Option (Nat × Nat) × Bft.St) :=
  f.emitC (fun i => i.1) (Bft.nextC um f.hier st)

/-- `AllocatingBreadthFirstTraverse::next`, `forest/traverse.rs` 447-455. -/
def abftNextC (f : Forest T) (st : ABft.St) : Counted (Option (Nat × Nat) × ABft.St) :=
  f.emitC (fun i => i.1) (ABft.nextC f.hier st)

end Forest

end Treena
