import Verif.Spec.Pool
import Verif.Model.Release
/-!
# Specification: clients of the two builds

`Spec/Plain.lean` and `Spec/Pool.lean` let a client call the functions of `Verif/Model` as compiled with debug assertions and
with depths that never overflow.  Here the client is linked against one of the two actual builds: the debug build has the
assertions and panics on overflow of `usize`, the release build has no assertions and wraps around.

The calls listed below are those that (transitively) contain a `debug_assert`, or arithmetic on `usize`; the code of the
others is the same in both builds.
-/
set_option autoImplicit false

namespace Treena
variable {T : Type}

/-- How the crate is compiled. -/
inductive Build where
  | debug
  | release
deriving DecidableEq

namespace Build

/-- The arithmetic on `usize`; `um` is `usize::MAX`. -/
def arith (um : Nat) : Build → Arith
  | .debug => .checked um
  | .release => .wrapping um

/-- The code of the build. -/
def pick {α : Type} (inDebug inRelease : α) : Build → α
  | .debug => inDebug
  | .release => inRelease

/-- One call on the build. -/
def exec (b : Build) (cap um : Nat) (f : Forest T) : Req T → Forest T × Ans T
  | .shallow x max ds => (f, .ofR .devents (Req.iterate (Mach.shallowNext (b.arith um) f) (Mach.shallowNextBack (b.arith um) f)
      (f.shallowDepthFirstTraverse um x max) ds))
  | .bft x n => (f, .ofR .levels (Req.iterate1 (Mach.breadthFirstNext (b.arith um) um f) (f.breadthFirstTraverse um x) n))
  | .abft x n => (f, .ofR .levels (Req.iterate1 (Mach.allocatingNext (b.arith um) f) (f.allocatingBreadthFirstTraverse x) n))
  | .detachSingle x => Ans.ofRes .ofExcept (b.pick Forest.detachSingle Release.Forest.detachSingle x f)
  | .drop x => Ans.ofRes (fun _ => .done) (b.pick Forest.remove Release.Forest.remove x f)
  | .remove x limit => Ans.ofResS (fun _ c => .dropped c)
      (b.pick Forest.removeHooked Release.Forest.removeHooked (Req.record limit) x (f, []))
  | .removeSafe x limit => Ans.ofResS (fun _ c => .dropped c)
      (b.pick Forest.removeHookedPanicSafe Release.Forest.removeHookedPanicSafe (Req.record limit) x (f, []))
  | .copy x cl limit => Ans.ofResS .copied
      (b.pick Forest.cloneLocalTreeWithIdMapping Release.Forest.cloneLocalTreeWithIdMapping cap cl
        (fun l a b => Req.record limit l (a, b)) x (f, []))
  | .dup x cl => Ans.ofRes .id
      (Forest.noHook (b.pick Forest.cloneLocalTreeWithIdMapping Release.Forest.cloneLocalTreeWithIdMapping cap cl
        (fun s _ _ => .ok s) x) f)
  | .print x pieces =>
      (f, match b.pick Forest.debugPrint Release.Forest.debugPrint
            (fun out piece => .ok (out ++ piece)) (fun d => .ofPieces true (pieces d)) f x [] with
        | .ok r out => .text r.toBool out
        | .fail e _ => .ofFail e)
  | q => q.exec cap um f

/-- `Iterator::next`. -/
def next (b : Build) (um : Nat) (f : Forest T) : Iter → R (Option Item × Iter)
  | .shallow st => Iter.lift .deep .shallow (Mach.shallowNext (b.arith um) f st)
  | .bft st => Iter.lift .level .bft (Mach.breadthFirstNext (b.arith um) um f st)
  | .abft st => Iter.lift .level .abft (Mach.allocatingNext (b.arith um) f st)
  | it => it.next um f

/-- `DoubleEndedIterator::next_back`. -/
def nextBack (b : Build) (um : Nat) (f : Forest T) : Iter → Option (R (Option Item × Iter))
  | .shallow st => some (Iter.lift .deep .shallow (Mach.shallowNextBack (b.arith um) f st))
  | it => it.nextBack f

/-- `peek`. -/
def peek (b : Build) (um : Nat) (f : Forest T) : Iter → Option (R (Option Item))
  | .abft st => some (Iter.lift1 .level (Mach.allocatingPeek (b.arith um) f st))
  | it => it.peek f

/-- One call by a client that keeps iterators. -/
def poolExec (b : Build) (cap um : Nat) (st : Forest T × List Iter) : PoolReq T → (Forest T × List Iter) × PoolAns T
  | .call q => ((((b.exec cap um st.1 q).1, if q.borrows then st.2 else [])), .call (b.exec cap um st.1 q).2)
  | .next i => match st.2[i]? with
    | some it => match b.next um st.1 it with
      | .ok (o, it') => ((st.1, st.2.set i it'), .item o)
      | .error e => (st, .ofFail e)
    | none => (st, .noMethod)
  | .nextBack i => match st.2[i]? with
    | some it => match b.nextBack um st.1 it with
      | some (.ok (o, it')) => ((st.1, st.2.set i it'), .item o)
      | some (.error e) => (st, .ofFail e)
      | none => (st, .noMethod)
    | none => (st, .noMethod)
  | .peek i => match st.2[i]? with
    | some it => match b.peek um st.1 it with
      | some (.ok o) => (st, .item o)
      | some (.error e) => (st, .ofFail e)
      | none => (st, .noMethod)
    | none => (st, .noMethod)
  | c => c.exec cap um st

/-- The answers a client gets in `n` calls on the build; it decides by the answers obtained so far. -/
def poolTranscript (b : Build) (cap um : Nat) (client : List (PoolAns T) → PoolReq T) :
    Nat → Forest T × List Iter → List (PoolAns T) → List (PoolAns T)
  | 0, _, seen => seen
  | n + 1, st, seen =>
    let q := b.poolExec cap um st (client seen)
    poolTranscript b cap um client n q.1 (seen ++ [q.2])

end Build

end Treena
