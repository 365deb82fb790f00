import Verif.Model.DebugPrint
/-!
# `debug_print` with formatters that have effects

In `Model/DebugPrint.lean` the `Display` (`Debug`) implementation of a datum is a function of the datum.  User code may as well
count its calls, read a global, or share a cell with the sink.  Here the formatter is an arbitrary terminating computation on the
state `S`, which is everything the sink and the formatters can reach.  The functions are those of `debug_print.rs` once
more, with the effectful formatter in place of the plain one. -/

set_option autoImplicit false

namespace Treena

/-- The behaviour of the formatter of a datum, `<T as fmt::Display>::fmt` or `<T as fmt::Debug>::fmt` (user code called in
`debug_print.rs` 230, 237, 270, 277). -/
inductive EFmt (S : Type) where
  /-- it returns, `Ok(())` if `true` -/
  | ret (ok : Bool)
  /-- it panics -/
  | panic
  /-- it calls `write_str(t)` and goes on with `k`, applied to whether the call returned `Ok(())` -/
  | write (t : Text) (k : Bool → EFmt S)
  /-- it changes the state from `σ` to `g σ` and goes on with `k σ` -/
  | act (g : S → S) (k : S → EFmt S)

/-- A formatter without effects. -/
def EFmt.ofFmt {S : Type} : Fmt → EFmt S
  | .ret ok => .ret ok
  | .panic => .panic
  | .write t k => .write t fun b => ofFmt (k b)

namespace DebugPrint
variable {S T : Type}

/-- The formatter of the data, run on the writer. -/
def runFmtE (put : S → Text → Except S S) : EFmt S → P S Unit
  | .ret ok => fun w => if ok then .ok () w else .err w
  | .panic => P.throw (.panic "the data's formatter panics")
  | .write t k => fun w =>
    match writeStr put t w with
    | .ok _ w' => runFmtE put (k true) w'
    | .err w' => runFmtE put (k false) w'
    | .fail e w' => .fail e w'
  | .act g k => fun w => runFmtE put (k w.sink) { w with sink := g w.sink }

/-- `debug_print.rs` 227-230, 234-237 (265-270, 274-277). -/
def writeDataE (put : S → Text → Except S S) (disp : T → EFmt S) (f : Forest T) (id : Nat) : P S Unit := do
  let d ← P.ofR (expect (f.getData id) "[consistency] the node must have a data when alive")
  runFmtE put (disp d)

/-- `debug_print.rs` 233-238 (272-278). -/
def printLoopE (put : S → Text → Except S S) (disp : T → EFmt S) (f : Forest T) (fuel : Nat) :
    Nat → Dft.St → P S Dft.St
  | 0, _ => P.throw .diverge
  | n + 1, st => do
    let (o, st) ← prepareNext put f.hier fuel st
    match o with
    | none => pure st
    | some id =>
      writeDataE put disp f id
      printLoopE put disp f fuel n st

/-- `inner`, `debug_print.rs` 217-242 (257-282). -/
def innerE (put : S → Text → Except S S) (disp : T → EFmt S) (f : Forest T) (root : Nat) : P S Unit := do
  let st ← P.ofR (Dft.withToplevel root f.hier)
  let (_, st) ← P.ofR (Dft.next f.hier st)
  writeDataE put disp f root
  let st ← printLoopE put disp f (fuel f.hier) (fuel f.hier) st
  let (o, _) ← P.ofR (Dft.next f.hier st)
  P.when o.isSome (P.throw (.panic "assertion failed: traverser.next(hierarchy).is_none()"))

end DebugPrint

/-- Formatting `forest.debug_print(id)`, `forest.rs` 1900-1906, `debug_print.rs` 213-250 (252-290). -/
def Forest.debugPrintE {S T : Type} (put : S → Text → Except S S) (disp : T → EFmt S) (f : Forest T) (id : Nat) :
    M S (Except Unit Unit) := fun σ =>
  match expect (f.node id) "[precondition] the node must be alive" with
  | .error e => .fail e σ
  | .ok n =>
    match DebugPrint.innerE put disp f n (DebugPrint.Writer.new σ) with
    | .ok _ w => .ok (.ok ()) w.sink
    | .err w => .ok (.error ()) w.sink
    | .fail e w => .fail e w.sink

end Treena
