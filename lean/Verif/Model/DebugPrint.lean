import Verif.Model.Forest
/-!
# Model of `src/dynamic/forest/debug_print.rs`

Simplifications.
* A `&str` is the list of its characters; byte offsets of `str::find` become character offsets.
* The backend `fmt::Formatter` is a sink with a state `S` and a function `put : S → Text → Except S S`
  (`write_str` / `write_char` of the backend; `.error` models that it returned `Err(fmt::Error)`).
* The `Display` (or `Debug`) implementation of the data is given by `disp : T → Fmt`, a decision tree: it
  writes a piece of text with `write_str` (`write_char` forwards to it) and goes on depending on whether that
  returned `Ok(())`, or it returns, or it panics.  `write!` hands it a new `Formatter`, so that it does not see
  the flags of the outer one.  A formatter that does not end, or whose behaviour changes from call to call,
  is not modelled.
-/

set_option autoImplicit false

namespace Treena

/-- A piece of text. -/
abbrev Text := List Char

/-- The behaviour of the formatter of the data, `<T as fmt::Display>::fmt` or `<T as fmt::Debug>::fmt`
(user code called in `debug_print.rs` 230, 237, 270, 277). -/
inductive Fmt where
  /-- it returns, `Ok(())` if `true` -/
  | ret (ok : Bool)
  /-- it panics -/
  | panic
  /-- it calls `write_str(t)` and goes on with `k`, applied to whether the call returned `Ok(())` -/
  | write (t : Text) (k : Bool → Fmt)

/-- The usual formatter: it writes the pieces one after the other, propagating errors with `?`, and finally
returns `Ok(())` if `ok`. -/
def Fmt.ofPieces (ok : Bool) : List Text → Fmt
  | [] => .ret ok
  | t :: ts => .write t fun b => if b then ofPieces ok ts else .ret false

/-- What the formatter writes if nothing is refused, provided that it then returns `Ok(())`. -/
def Fmt.says : Fmt → Option Text
  | .ret ok => if ok then some [] else none
  | .panic => none
  | .write t k => (k true).says.map (t ++ ·)

/-- The formatter never panics. -/
def Fmt.calm : Fmt → Prop
  | .ret _ => True
  | .panic => False
  | .write _ k => ∀ b, (k b).calm

namespace DebugPrint

/-- `struct IndentLevel`, `debug_print.rs` 12-19. -/
structure IndentLevel where
  isLastItem : Bool
  isFirstLine : Bool
deriving DecidableEq, Repr

namespace IndentLevel

/-- `IndentLevel::as_str`, `debug_print.rs` 22-30. -/
def asStr (i : IndentLevel) : Text :=
  match i.isLastItem, i.isFirstLine with
  | false, true => ['|', '-', '-', ' ']
  | false, false => ['|', ' ', ' ', ' ']
  | true, true => ['`', '-', '-', ' ']
  | true, false => [' ', ' ', ' ', ' ']

/-- `IndentLevel::as_str_leading`, `debug_print.rs` 32-40. -/
def leading (i : IndentLevel) : Text :=
  match i.isLastItem, i.isFirstLine with
  | false, true => ['|', '-', '-']
  | false, false => ['|']
  | true, true => ['`', '-', '-']
  | true, false => []

/-- `IndentLevel::as_str_trailing_spaces`, `debug_print.rs` 42-49. -/
def trailingSpaces (i : IndentLevel) : Text :=
  match i.isLastItem, i.isFirstLine with
  | _, true => [' ']
  | false, false => [' ', ' ', ' ']
  | true, false => [' ', ' ', ' ', ' ']

/-- `IndentLevel::is_all_whitespace`, `debug_print.rs` 51-56. -/
def isAllWhitespace (i : IndentLevel) : Bool := i.isLastItem && !i.isFirstLine

end IndentLevel

/-- `enum LineState`, `debug_print.rs` 59-70. -/
inductive LineState where
  | beforeIndent
  | partialIndent
  | content
deriving DecidableEq, Repr

/-- `struct IndentWriter`, `debug_print.rs` 72-80; the backend is the component `sink`. -/
structure Writer (S : Type) where
  sink : S
  lineState : LineState
  /-- the vector, its last element at the end -/
  indents : List IndentLevel

/-- Outcome of a writing function: it returns `Ok(a)`, it returns `Err(fmt::Error)`, or it panics
(diverges). -/
inductive Out (σ α : Type) where
  | ok (a : α) (s : σ)
  | err (s : σ)
  | fail (e : Fail) (s : σ)

/-- A function that may write; the composition is the `?` operator. -/
def P (S α : Type) := Writer S → Out (Writer S) α

namespace P
variable {S α β : Type}

def pure (a : α) : P S α := fun w => .ok a w

def bind (m : P S α) (k : α → P S β) : P S β := fun w =>
  match m w with
  | .ok a w' => k a w'
  | .err w' => .err w'
  | .fail e w' => .fail e w'

instance : Monad (P S) where
  pure := P.pure
  bind := P.bind

/-- Return `Err(fmt::Error)`. -/
def fmtError : P S α := fun w => .err w

/-- Panic or diverge. -/
def throw (e : Fail) : P S α := fun w => .fail e w

/-- The result of a read-only computation. -/
def ofR (r : R α) : P S α := fun w =>
  match r with
  | .ok a => .ok a w
  | .error e => .fail e w

/-- Read `self.line_state`. -/
def line : P S LineState := fun w => .ok w.lineState w

/-- Read `self.indents`. -/
def indents : P S (List IndentLevel) := fun w => .ok w.indents w

/-- `if b { m }`. -/
def when (b : Bool) (m : P S Unit) : P S Unit := fun w => if b then m w else .ok () w

/-- Change the writer. -/
def modify (g : Writer S → Writer S) : P S Unit := fun w => .ok () (g w)

@[simp] theorem run_pure (a : α) (w : Writer S) : (Pure.pure a : P S α) w = .ok a w := rfl
@[simp] theorem run_bind (m : P S α) (k : α → P S β) (w : Writer S) :
    (m >>= k) w = match m w with
      | .ok a w' => k a w'
      | .err w' => .err w'
      | .fail e w' => .fail e w' := rfl
@[simp] theorem run_fmtError (w : Writer S) : (fmtError : P S α) w = .err w := rfl
@[simp] theorem run_throw (e : Fail) (w : Writer S) : (throw e : P S α) w = .fail e w := rfl
@[simp] theorem run_ofR_ok (a : α) (w : Writer S) : (ofR (.ok a) : P S α) w = .ok a w := rfl
@[simp] theorem run_ofR_error (e : Fail) (w : Writer S) : (ofR (.error e) : P S α) w = .fail e w := rfl
@[simp] theorem run_line (w : Writer S) : (line : P S LineState) w = .ok w.lineState w := rfl
@[simp] theorem run_indents (w : Writer S) : (indents : P S (List IndentLevel)) w = .ok w.indents w := rfl
@[simp] theorem run_modify (g : Writer S → Writer S) (w : Writer S) : modify g w = .ok () (g w) := rfl

end P

variable {S T : Type}

/-- `self.fmt.write_str(t)?`, `self.fmt.write_char(c)?`. -/
def emit (put : S → Text → Except S S) (t : Text) : P S Unit := fun w =>
  match put w.sink t with
  | .ok σ => .ok () { w with sink := σ }
  | .error σ => .err { w with sink := σ }

/-- `self.line_state = l`. -/
def setLine (l : LineState) : P S Unit := P.modify fun w => { w with lineState := l }

/-- `if let Some(indent) = indents.last_mut() { indent.is_first_line = false; }` on a vector. -/
def clearLast (l : List IndentLevel) : List IndentLevel :=
  match l.getLast? with
  | none => l
  | some i => l.dropLast ++ [{ i with isFirstLine := false }]

/-- `IndentWriter::new`, `debug_print.rs` 83-90. -/
def Writer.new (σ : S) : Writer S := ⟨σ, .beforeIndent, []⟩

/-- `IndentWriter::open_item`, `debug_print.rs` 92-111. -/
def openItem (put : S → Text → Except S S) (isLastItem : Bool) : P S Unit := do
  let l ← P.line
  P.when (l != .beforeIndent) do
    emit put ['\n']
    setLine .beforeIndent
  P.modify fun w => { w with indents := clearLast w.indents }
  P.modify fun w => { w with indents := w.indents ++ [⟨isLastItem, true⟩] }

/-- `IndentWriter::close_item`, `debug_print.rs` 113-123; `true` for `Ok(())`. -/
def closeItem : P S Bool := do
  let is ← P.indents
  match is.getLast? with
  | some _ =>
    P.modify fun w => { w with indents := w.indents.dropLast }
    pure true
  | none => pure false

/-- The `while` loop of `write_indent_partial`, `debug_print.rs` 127-130, on the reversed slice. -/
def stripRev : List IndentLevel → List IndentLevel
  | [] => []
  | i :: l => if i.isAllWhitespace then stripRev l else i :: l

/-- The `for` loop of `write_indent_partial`, `debug_print.rs` 132-134. -/
def emitAll (put : S → Text → Except S S) : List IndentLevel → P S Unit
  | [] => pure ()
  | i :: l => do
    emit put i.asStr
    emitAll put l

/-- `IndentWriter::write_indent_partial`, `debug_print.rs` 125-139. -/
def writeIndentPartial (put : S → Text → Except S S) : P S Unit := do
  let is ← P.indents
  match (stripRev is.reverse).reverse.getLast? with
  | some last =>
    emitAll put (stripRev is.reverse).reverse.dropLast
    emit put last.leading
  | none => pure ()

/-- `IndentWriter::complete_partial_indent`, `debug_print.rs` 141-149. -/
def completePartialIndent (put : S → Text → Except S S) : P S Unit := do
  let l ← P.line
  P.when (l != .partialIndent) (P.throw (.panic "assertion `left == right` failed"))
  let is ← P.indents
  match is.getLast? with
  | some indent => emit put indent.trailingSpaces
  | none => pure ()

/-- Lines 162-170: the end of the first line of `s` and whether it has a newline. -/
def lineEnd (s : Text) : Nat × Bool :=
  if s.findIdx (· == '\n') < s.length then (s.findIdx (· == '\n') + 1, true) else (s.length, false)

/-- Lines 157-160. -/
def startLine (put : S → Text → Except S S) : P S Unit := do
  let l ← P.line
  P.when (l == .beforeIndent) do
    writeIndentPartial put
    setLine .partialIndent

/-- Lines 172-188, for the content of one line. -/
def writeContent (put : S → Text → Except S S) (content : Text) (endsWithNewline : Bool) : P S Unit :=
  P.when (!content.isEmpty) do
    let l ← P.line
    P.when (l == .beforeIndent)
      (P.throw (.panic "[consistency] indent must be written since there are something to write"))
    P.when (l == .partialIndent) (completePartialIndent put)
    emit put content
    setLine (if endsWithNewline then .beforeIndent else .content)

/-- `impl fmt::Write for IndentWriter`, `write_str`, `debug_print.rs` 152-194.  The first argument is
the fuel of the `while` loop (each round consumes at least one character). -/
def writeStrLoop (put : S → Text → Except S S) : Nat → Text → P S Unit
  | _, [] => pure ()
  | 0, _ :: _ => P.throw .diverge
  | n + 1, c :: cs => do
    startLine put
    P.when (lineEnd (c :: cs)).2 (P.modify fun w => { w with indents := clearLast w.indents })
    writeContent put ((c :: cs).take (lineEnd (c :: cs)).1) (lineEnd (c :: cs)).2
    writeStrLoop put n ((c :: cs).drop (lineEnd (c :: cs)).1)

/-- `write_str`, `debug_print.rs` 153-193. -/
def writeStr (put : S → Text → Except S S) (s : Text) : P S Unit := writeStrLoop put s.length s

/-- The formatter of the data, run on the writer. -/
def runFmt (put : S → Text → Except S S) : Fmt → P S Unit
  | .ret ok => fun w => if ok then .ok () w else .err w
  | .panic => P.throw (.panic "the data's formatter panics")
  | .write t k => fun w =>
    match writeStr put t w with
    | .ok _ w' => runFmt put (k true) w'
    | .err w' => runFmt put (k false) w'
    | .fail e w' => .fail e w'

/-- `data[id.to_usize()].as_ref().expect(..)` and `write!(writer, "{}", data)?`, `debug_print.rs`
227-230, 234-237 (265-270, 274-277 for `Debug`). -/
def writeData (put : S → Text → Except S S) (disp : T → Fmt) (f : Forest T) (id : Nat) :
    P S Unit := do
  let d ← P.ofR (expect (f.getData id) "[consistency] the node must have a data when alive")
  runFmt put (disp d)

/-- `hierarchy.neighbors(open_id).expect(..).next_sibling().is_none()`, `debug_print.rs` 312-316. -/
def isLastSibling (h : Hier) (id : Nat) : R Bool :=
  match travNbr h id with
  | .error e => .error e
  | .ok nb =>
    match nb.nextSibling with
    | .error e => .error e
    | .ok o => .ok o.isNone

/-- `prepare_next_node_printing`, `debug_print.rs` 293-323; the first argument is the fuel of the
`while` loop, the traverser is passed and returned. -/
def prepareNext (put : S → Text → Except S S) (h : Hier) : Nat → Dft.St → P S (Option Nat × Dft.St)
  | 0, _ => P.throw .diverge
  | n + 1, st => do
    let (ev, st) ← P.ofR (Dft.next h st)
    match ev with
    | none => pure (none, st)
    | some (.cls _) =>
      let ok ← closeItem
      if ok then prepareNext put h n st else pure (none, st)
    | some (.opn id) =>
      let isLast ← P.ofR (isLastSibling h id)
      openItem put isLast
      pure (some id, st)

/-- The loop printing the descendants, `debug_print.rs` 233-238 (272-278); returns the traverser. -/
def printLoop (put : S → Text → Except S S) (disp : T → Fmt) (f : Forest T) (fuel : Nat) :
    Nat → Dft.St → P S Dft.St
  | 0, _ => P.throw .diverge
  | n + 1, st => do
    let (o, st) ← prepareNext put f.hier fuel st
    match o with
    | none => pure st
    | some id =>
      writeData put disp f id
      printLoop put disp f fuel n st

/-- Fuel for the loops over the events of a traversal: so much that, for a sink that does not fail, exhausted fuel means
an endless loop in every forest, also in a corrupted one (`printLoop_fuel`). -/
def fuel (h : Hier) : Nat := (2 * h.nbrs.length + 2) * (2 * h.nbrs.length + 3) + 2

/-- `inner` of `<DebugPrint as fmt::Display>::fmt`, `debug_print.rs` 217-242, and of
`<DebugPrint as fmt::Debug>::fmt`, 257-282 (the two differ only in the formatter of the data). -/
def inner (put : S → Text → Except S S) (disp : T → Fmt) (f : Forest T) (root : Nat) :
    P S Unit := do
  let st ← P.ofR (Dft.withToplevel root f.hier)
  let (_, st) ← P.ofR (Dft.next f.hier st)
  writeData put disp f root
  let st ← printLoop put disp f (fuel f.hier) (fuel f.hier) st
  let (o, _) ← P.ofR (Dft.next f.hier st)
  P.when o.isSome (P.throw (.panic "assertion failed: traverser.next(hierarchy).is_none()"))

end DebugPrint

/-- Formatting `forest.debug_print(id)` with `{}` (or `{:?}`, `disp` being the formatter of the data) into a
sink: `Forest::debug_print`, `forest.rs` 1900-1906, `DebugPrint::fmt`, `debug_print.rs` 213-250 (252-290).
`NodeMut::debug_print` and `Node::debug_print` (`node.rs` 663-665, 1413-1415) build the same object from a
live node.  The result is the `fmt::Result`; the state is the sink. -/
def Forest.debugPrint {S T : Type} (put : S → Text → Except S S) (disp : T → Fmt)
    (f : Forest T) (id : Nat) : M S (Except Unit Unit) := fun σ =>
  match expect (f.node id) "[precondition] the node must be alive" with
  | .error e => .fail e σ
  | .ok n =>
    match DebugPrint.inner put disp f n (DebugPrint.Writer.new σ) with
    | .ok _ w => .ok (.ok ()) w.sink
    | .err w => .ok (.error ()) w.sink
    | .fail e w => .fail e w.sink

end Treena
