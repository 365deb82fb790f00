/-!
# Execution model shared by all modelled functions

A Rust function that takes `&mut self` is modelled as a state transformer `M σ α`.  A panic carries the
state the object had when the panic started to unwind, so that code observing the object after
`catch_unwind` can be reasoned about.
-/

set_option autoImplicit false

namespace Treena

/-- Ways in which a modelled call may fail to return.
`panic` models `panic!`, `assert!`, `debug_assert!`, `expect`, out-of-bounds indexing;
`diverge` is produced when the fuel of a modelled `while` loop is exhausted. -/
inductive Fail where
  | panic (msg : String)
  | diverge
deriving DecidableEq, Repr

/-- Result of a read-only computation (a `&self` function). -/
abbrev R (α : Type) := Except Fail α

/-- `Option::expect`. -/
def expect {α : Type} (o : Option α) (msg : String) : R α :=
  match o with
  | some a => .ok a
  | none => .error (.panic msg)

/-- Result of a mutating computation, with the state after it (or at the panic). -/
inductive Res (σ α : Type) where
  | ok (a : α) (s : σ)
  | fail (e : Fail) (s : σ)
deriving DecidableEq, Repr

/-- State reached, whether the call returned or panicked. -/
def Res.state {σ α : Type} : Res σ α → σ
  | .ok _ s => s
  | .fail _ s => s

/-- A mutating computation (a `&mut self` function). -/
def M (σ α : Type) := σ → Res σ α

namespace M
variable {σ α β : Type}

def pure (a : α) : M σ α := fun s => .ok a s

def bind (m : M σ α) (f : α → M σ β) : M σ β := fun s =>
  match m s with
  | .ok a s' => f a s'
  | .fail e s' => .fail e s'

instance : Monad (M σ) where
  pure := M.pure
  bind := M.bind

/-- Start unwinding (or diverge) in the current state. -/
def throw (e : Fail) : M σ α := fun s => .fail e s

/-- `panic!(msg)`. -/
def panic (msg : String) : M σ α := throw (.panic msg)

/-- Run a read-only computation against the current state. -/
def read (f : σ → R α) : M σ α := fun s =>
  match f s with
  | .ok a => .ok a s
  | .error e => .fail e s

/-- Replace the state. -/
def modify (f : σ → σ) : M σ Unit := fun s => .ok () (f s)

/-- Run a computation on a component of the state (a field borrowed mutably). -/
def zoom {τ : Type} (getF : τ → σ) (setF : σ → τ → τ) (m : M σ α) : M τ α := fun t =>
  match m (getF t) with
  | .ok a s => .ok a (setF s t)
  | .fail e s => .fail e (setF s t)

@[simp] theorem run_pure (a : α) (s : σ) : (Pure.pure a : M σ α) s = .ok a s := rfl
@[simp] theorem run_bind (m : M σ α) (f : α → M σ β) (s : σ) :
    (m >>= f) s = match m s with
      | .ok a s' => f a s'
      | .fail e s' => .fail e s' := rfl
@[simp] theorem run_throw (e : Fail) (s : σ) : (throw e : M σ α) s = .fail e s := rfl
@[simp] theorem run_panic (m : String) (s : σ) : (panic m : M σ α) s = .fail (.panic m) s := rfl
@[simp] theorem run_modify (f : σ → σ) (s : σ) : modify f s = .ok () (f s) := rfl

end M

@[simp] theorem expect_some {α : Type} (a : α) (m : String) : expect (some a) m = .ok a := rfl
@[simp] theorem expect_none {α : Type} (m : String) :
    expect (none : Option α) m = .error (.panic m) := rfl

end Treena
