import Verif.Spec.Plain
/-!
# Specification: clients that keep iterators

A client may keep any number of iterators over a forest at once, use them in any order between other read-only calls, look
ahead (`peek`, `peek_back`) and `clone` them half-way; only a call that changes the forest ends them all (Rust's borrow rules).
The naive counterpart of an iterator is the list of the items it has still to give.
-/
set_option autoImplicit false

namespace Treena
variable {T : Type}

/-- An item of an iterator. -/
inductive Item where
  /-- of `DepthFirstTraverse` -/
  | event (e : Ev Nat)
  /-- of `ShallowDepthFirstTraverse` -/
  | deep (e : Ev Nat × Nat)
  /-- of the breadth-first iterators -/
  | level (p : Nat × Nat)
  /-- of `Ancestors` and `Siblings` -/
  | node (x : Nat)
deriving DecidableEq

/-- The making of an iterator. -/
inductive IterReq where
  | dft (x : Nat)
  | shallow (x : Nat) (max : Option Nat)
  | bft (x : Nat)
  | abft (x : Nat)
  | ancestors (x : Nat) (self : Bool)
  | row (x : Nat) (k : Row)

/-- A call of the public interface, by a client that has a pool of iterators, numbered in the order of their making. -/
inductive PoolReq (T : Type) where
  /-- a call of `Forest`, `Node` or `NodeMut` -/
  | call (q : Req T)
  /-- make an iterator -/
  | start (q : IterReq)
  | next (i : Nat)
  | nextBack (i : Nat)
  | peek (i : Nat)
  | peekBack (i : Nat)
  /-- `max_depth()` -/
  | maxDepth (i : Nat)
  /-- `clone()`: the copy is a new iterator -/
  | dup (i : Nat)

/-- An answer. -/
inductive PoolAns (T : Type) where
  | call (a : Ans T)
  /-- an iterator was made -/
  | opened
  | item (o : Option Item)
  | depth (o : Option Nat)
  /-- no such iterator, or it has no such method -/
  | noMethod
  | panicked
  | hung
deriving DecidableEq

/-- The call takes `&self`, so that iterators may be kept over it. -/
def Req.borrows : Req T → Bool
  | .alive _ | .data _ | .link _ _ | .ends _ | .near _ _ | .nearEnds _ | .dft _ _ | .shallow _ _ _ | .bft _ _ | .abft _ _
  | .ancestors _ _ _ | .row _ _ _ | .print _ _ => true
  | _ => false

/-! ### The naive counterpart -/

/-- The iterator types. -/
inductive IterKind where
  | dft | shallow | bft | abft | ancestors | siblings
deriving DecidableEq

/-- The type has `next_back`. -/
def IterKind.double : IterKind → Bool
  | .dft | .shallow | .siblings => true
  | _ => false

/-- The type has `peek`. -/
def IterKind.peeks : IterKind → Bool
  | .bft => false
  | _ => true

/-- A naive iterator: the items still to be given. -/
structure Deck where
  kind : IterKind
  /-- depth limit, for `ShallowDepthFirstTraverse` -/
  max : Option Nat
  rest : List Item

/-- What the new iterator is over, if the node exists. -/
def Plain.deck (um : Nat) (r : Plain T) : IterReq → Option Deck
  | .dft x => (Wood.findL x r.trees).map fun t => ⟨.dft, none, (t.map (·.1)).events.map .event⟩
  | .shallow x max => (Wood.findL x r.trees).map fun t =>
      let m := max.bind fun m => if m < um then some m else none
      ⟨.shallow, m, ((t.map (·.1)).shallow m).map .deep⟩
  | .bft x => (Wood.findL x r.trees).map fun t => ⟨.bft, none, (t.map (·.1)).bfs.map .level⟩
  | .abft x => (Wood.findL x r.trees).map fun t => ⟨.abft, none, (t.map (·.1)).bfs.map .level⟩
  | .ancestors x self => (Wood.findL x r.trees).map fun _ =>
      ⟨.ancestors, none, (if self then r.path (r.issued + 1) x else (r.path (r.issued + 1) x).tail).map .node⟩
  | .row x k => (Wood.findL x r.trees).map fun _ => ⟨.siblings, none, (r.row x k).map .node⟩

/-- One call on the naive implementation. -/
def Plain.poolExec (cap um : Nat) (st : Plain T × List Deck) : PoolReq T → Option ((Plain T × List Deck) × PoolAns T)
  | .call q => (st.1.exec cap um q).map fun p => ((p.1, if q.borrows then st.2 else []), .call p.2)
  | .start q => some (match st.1.deck um q with
    | some d => ((st.1, st.2 ++ [d]), .opened)
    | none => (st, .panicked))
  | .next i => some (match st.2[i]? with
    | some d => ((st.1, st.2.set i { d with rest := d.rest.tail }), .item d.rest.head?)
    | none => (st, .noMethod))
  | .nextBack i => some (match st.2[i]? with
    | some d =>
      if d.kind.double then ((st.1, st.2.set i { d with rest := d.rest.dropLast }), .item d.rest.getLast?)
      else (st, .noMethod)
    | none => (st, .noMethod))
  | .peek i => some (match st.2[i]? with
    | some d => if d.kind.peeks then (st, .item d.rest.head?) else (st, .noMethod)
    | none => (st, .noMethod))
  | .peekBack i => some (match st.2[i]? with
    | some d => if d.kind.double then (st, .item d.rest.getLast?) else (st, .noMethod)
    | none => (st, .noMethod))
  | .maxDepth i => some (match st.2[i]? with
    | some d => if d.kind = .shallow then (st, .depth d.max) else (st, .noMethod)
    | none => (st, .noMethod))
  | .dup i => some (match st.2[i]? with
    | some d => ((st.1, st.2 ++ [d]), .opened)
    | none => (st, .noMethod))

/-! ### The modelled code -/

/-- An iterator of the modelled code. -/
inductive Iter where
  | dft (st : Dft.St)
  | shallow (st : Shallow.St)
  | bft (st : Bft.St)
  | abft (st : ABft.St)
  | ancestors (st : Ancestors.St)
  | siblings (st : Siblings.St)

namespace Iter

/-- Wrap an item and a state. -/
def lift {ι σ : Type} (g : ι → Item) (k : σ → Iter) : R (Option ι × σ) → R (Option Item × Iter)
  | .ok (o, st) => .ok (o.map g, k st)
  | .error e => .error e

/-- Wrap an item. -/
def lift1 {ι : Type} (g : ι → Item) : R (Option ι) → R (Option Item)
  | .ok o => .ok (o.map g)
  | .error e => .error e

/-- Wrap a state. -/
def made {σ : Type} (k : σ → Iter) : R σ → R Iter
  | .ok st => .ok (k st)
  | .error e => .error e

/-- The functions of `Forest` that make iterators. -/
def start (um : Nat) (f : Forest T) : IterReq → R Iter
  | .dft x => made .dft (f.depthFirstTraverse x)
  | .shallow x max => made .shallow (f.shallowDepthFirstTraverse um x max)
  | .bft x => made .bft (f.breadthFirstTraverse um x)
  | .abft x => made .abft (f.allocatingBreadthFirstTraverse x)
  | .ancestors x self => made .ancestors (if self then f.ancestorsOrSelf x else f.ancestors x)
  | .row x k => made .siblings (Req.rowOf f x k)

/-- `Iterator::next`. -/
def next (um : Nat) (f : Forest T) : Iter → R (Option Item × Iter)
  | .dft st => lift .event .dft (f.dftNext st)
  | .shallow st => lift .deep .shallow (f.shallowNext st)
  | .bft st => lift .level .bft (f.bftNext um st)
  | .abft st => lift .level .abft (f.abftNext st)
  | .ancestors st => lift .node .ancestors (f.ancestorsNext st)
  | .siblings st => lift .node .siblings (f.siblingsNext st)

/-- `DoubleEndedIterator::next_back`, for the types that have it. -/
def nextBack (f : Forest T) : Iter → Option (R (Option Item × Iter))
  | .dft st => some (lift .event .dft (f.dftNextBack st))
  | .shallow st => some (lift .deep .shallow (f.shallowNextBack st))
  | .siblings st => some (lift .node .siblings (f.siblingsNextBack st))
  | _ => none

/-- `peek`, for the types that have it. -/
def peek (f : Forest T) : Iter → Option (R (Option Item))
  | .dft st => some (lift1 .event (f.dftPeek st))
  | .shallow st => some (lift1 .deep (f.shallowPeek st))
  | .bft _ => none
  | .abft st => some (lift1 .level (f.abftPeek st))
  | .ancestors st => some (lift1 .node (f.ancestorsPeek st))
  | .siblings st => some (lift1 .node (f.siblingsPeek st))

/-- `peek_back`, for the types that have it. -/
def peekBack (f : Forest T) : Iter → Option (R (Option Item))
  | .dft st => some (lift1 .event (f.dftPeekBack st))
  | .shallow st => some (lift1 .deep (f.shallowPeekBack st))
  | .siblings st => some (lift1 .node (f.siblingsPeekBack st))
  | _ => none

/-- `max_depth`. -/
def maxDepth : Iter → Option (Option Nat)
  | .shallow st => some (Forest.shallowMaxDepth st)
  | _ => none

end Iter

namespace PoolAns

/-- A call that did not return. -/
def ofFail : Fail → PoolAns T
  | .panic _ => .panicked
  | .diverge => .hung

end PoolAns

namespace PoolReq

/-- One call on the modelled code; the client has the forest and its iterators. -/
def exec (cap um : Nat) (st : Forest T × List Iter) : PoolReq T → (Forest T × List Iter) × PoolAns T
  | .call q => ((((q.exec cap um st.1).1, if q.borrows then st.2 else [])), .call (q.exec cap um st.1).2)
  | .start q => match Iter.start um st.1 q with
    | .ok it => ((st.1, st.2 ++ [it]), .opened)
    | .error e => (st, .ofFail e)
  | .next i => match st.2[i]? with
    | some it => match it.next um st.1 with
      | .ok (o, it') => ((st.1, st.2.set i it'), .item o)
      | .error e => (st, .ofFail e)
    | none => (st, .noMethod)
  | .nextBack i => match st.2[i]? with
    | some it => match it.nextBack st.1 with
      | some (.ok (o, it')) => ((st.1, st.2.set i it'), .item o)
      | some (.error e) => (st, .ofFail e)
      | none => (st, .noMethod)
    | none => (st, .noMethod)
  | .peek i => match st.2[i]? with
    | some it => match it.peek st.1 with
      | some (.ok o) => (st, .item o)
      | some (.error e) => (st, .ofFail e)
      | none => (st, .noMethod)
    | none => (st, .noMethod)
  | .peekBack i => match st.2[i]? with
    | some it => match it.peekBack st.1 with
      | some (.ok o) => (st, .item o)
      | some (.error e) => (st, .ofFail e)
      | none => (st, .noMethod)
    | none => (st, .noMethod)
  | .maxDepth i => match st.2[i]? with
    | some it => match it.maxDepth with
      | some o => (st, .depth o)
      | none => (st, .noMethod)
    | none => (st, .noMethod)
  | .dup i => match st.2[i]? with
    | some it => ((st.1, st.2 ++ [it]), .opened)
    | none => (st, .noMethod)

end PoolReq

/-- The answers a client gets in `n` calls on the modelled code; it decides by the answers obtained so far. -/
def poolTranscript (cap um : Nat) (client : List (PoolAns T) → PoolReq T) :
    Nat → Forest T × List Iter → List (PoolAns T) → List (PoolAns T)
  | 0, _, seen => seen
  | n + 1, st, seen =>
    let q := (client seen).exec cap um st
    poolTranscript cap um client n q.1 (seen ++ [q.2])

/-- The same on the naive implementation; the client is stopped at the first call for which nothing is promised. -/
def Plain.poolTranscript (cap um : Nat) (client : List (PoolAns T) → PoolReq T) :
    Nat → Plain T × List Deck → List (PoolAns T) → List (PoolAns T)
  | 0, _, seen => seen
  | n + 1, st, seen =>
    match Plain.poolExec cap um st (client seen) with
    | none => seen
    | some q => Plain.poolTranscript cap um client n q.1 (seen ++ [q.2])

end Treena
