import Verif.Model.Builders
/-!
# `NestTreeBuilder` in the hands of arbitrary closures

The closure given to `create_tree` gets a `&mut NestTreeBuilder<'a, Id, T>`.  Apart from calling methods it may catch the panic of an inner
closure (`catch_unwind`), after which the builder is used in the state the panic left, and it may exchange the builder with
another one of the same type (`mem::swap`, `mem::replace`), which works on another forest. -/

set_option autoImplicit false

namespace Treena
variable {T : Type}

/-- What a closure can do with its `&mut NestTreeBuilder` (`nest_builder.rs` 85-88). -/
inductive WildCall (T : Type) where
  /-- `b.add_child(d)` -/
  | addChild (d : T)
  /-- `b.create_tree(d, |b| closure)` -/
  | createTree (d : T) (closure : List (WildCall T))
  /-- `panic!()` -/
  | boom
  /-- `let _ = catch_unwind(AssertUnwindSafe(|| body));` -/
  | caught (body : List (WildCall T))
  /-- `mem::swap(b, other)` -/
  | swap

namespace WildCall

/-- Run an operation on the builder behind `b`; the second component is the other builder. -/
def onSelf {α : Type} (m : M (Nest T) α) : M (Nest T × Nest T) α :=
  M.zoom (fun p => p.1) (fun b p => (b, p.2)) m

/-- `NestTreeBuilder::create_tree`, `nest_builder.rs` 85-101, the closure `f` having access to another builder. -/
def createTreeOf (cap : Nat) (d : T) (f : M (Nest T × Nest T) Unit) : M (Nest T × Nest T) Unit := do
  onSelf (Nest.addChild cap d)
  let newRoot ← onSelf (M.read fun b => expect b.current "[consistency] `add_child` makes `current` `Some`")
  onSelf (M.modify fun b => { b with current := none })
  let oldRoot ← onSelf (M.read fun b => .ok b.root)
  onSelf (M.modify fun b => { b with root := newRoot })
  f
  onSelf (M.modify fun b => { b with current := some newRoot })
  onSelf (M.modify fun b => { b with root := oldRoot })

/-- `catch_unwind`: a panic becomes a normal return, the state is what the panic left. -/
def rescue {σ : Type} (m : M σ Unit) : M σ Unit := fun s =>
  match m s with
  | .ok () s' => .ok () s'
  | .fail (.panic _) s' => .ok () s'
  | .fail .diverge s' => .fail .diverge s'

mutual
/-- One call. -/
def exec (cap : Nat) : WildCall T → M (Nest T × Nest T) Unit
  | .addChild d => onSelf (Nest.addChild cap d)
  | .createTree d cs => createTreeOf cap d (execL cap cs)
  | .boom => M.panic "user code panicked"
  | .caught cs => rescue (execL cap cs)
  | .swap => M.modify fun p => (p.2, p.1)
/-- Calls one after the other. -/
def execL (cap : Nat) : List (WildCall T) → M (Nest T × Nest T) Unit
  | [] => pure ()
  | c :: cs => do
    exec cap c
    execL cap cs
end

end WildCall
end Treena
