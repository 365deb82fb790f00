import Verif.Model.History
import Verif.Model.DebugPrint
/-!
# The remaining public functions: `NodeMut` accessors, `Forest::clone`, `Forest::remove` with a panicking `Drop`
-/
set_option autoImplicit false

namespace Treena
variable {T : Type}

namespace NodeMut

/-- `NodeMut::node`, `node.rs` 709-713, and `NodeMut::into_node`, `node.rs` 715-719 (which differ in lifetimes only). -/
def node (self : Nat) (f : Forest T) : R Nat :=
  expect (f.node self) "[validity] the node must be already checked to be alive"

/-- `NodeMut::data`, `node.rs` 737-744. -/
def data (self : Nat) (f : Forest T) : R T :=
  expect (f.getData self) "[validity] the node has been checked to be alive"

/-- `*node.data_mut() = v`: a write through the reference of `NodeMut::data_mut`, `node.rs` 746-755, or of
`NodeMut::into_data_ref_mut`, `node.rs` 757-764. -/
def write (self : Nat) (v : T) : M (Forest T) Unit := do
  let there ← Forest.setData self v
  if there then pure () else M.panic "[validity] the node has been checked to be alive"

/-- `NodeMut::debug_print`, `node.rs` 1413-1415, formatted into a sink. -/
def debugPrint {S : Type} (put : S → Text → Except S S) (disp : T → Fmt) (self : Nat)
    (f : Forest T) : M S (Except Unit Unit) := fun σ =>
  match node self f with
  | .error e => .fail e σ
  | .ok n => Forest.debugPrint put disp f n σ

/-- The methods of `NodeMut` that take `&mut self`, so that the `NodeMut` can be used afterwards. -/
inductive Call (T : Type) where
  | create (d : T) (dest : AdoptAs)
  | adopt (node : Nat) (dest : AdoptAs)
  | tryAdopt (node : Nat) (dest : AdoptAs)
  | detach
  | detachSingle
  | write (v : T)

/-- The forest after the call, or at its panic. -/
def Call.step (cap self : Nat) (f : Forest T) : Call T → Forest T
  | .create d dest => (NodeMut.create cap self d dest f).state
  | .adopt x dest => (NodeMut.adopt self x dest f).state
  | .tryAdopt x dest => (NodeMut.tryAdopt self x dest f).state
  | .detach => (NodeMut.detach self f).state
  | .detachSingle => (NodeMut.detachSingle self f).state
  | .write v => (NodeMut.write self v f).state

/-- The forest after several calls on the same `NodeMut`, panics being caught. -/
def Call.run (cap self : Nat) (f : Forest T) (calls : List (Call T)) : Forest T :=
  calls.foldl (Call.step cap self) f

end NodeMut

/-- `Forest::clone` (`#[derive(Clone)]`, `forest.rs` 116): the vectors are cloned element by element.  `cl` is
`T::clone`, here assumed not to panic (a panic would leave the original as it is and give no clone). -/
def Forest.clone (cl : T → T) (f : Forest T) : Forest T := ⟨f.hier, f.data.map (Option.map cl)⟩

/-- `Forest::clone` (`#[derive(Clone)]`, `forest.rs` 116) with a `T::clone` that may panic (`cl d = none`): the panic
leaves the original as it is, and there is no clone. -/
def Forest.tryClone (cl : T → Option T) (f : Forest T) : R (Forest T) :=
  if f.data.all fun o => (o.map fun d => (cl d).isSome).getD true then .ok ⟨f.hier, f.data.map (·.bind cl)⟩
  else .error (.panic "T::clone panicked")

/-- `Forest::remove`, `forest.rs` 976-978, when dropping the data for which `bad` holds panics. -/
def Forest.removeDrop (bad : T → Bool) (node : Nat) : M (Forest T) Unit := fun f =>
  match Forest.removeHooked (S := Unit) (fun s d => if bad d then .error s else .ok s) node (f, ()) with
  | .ok _ (f', _) => .ok () f'
  | .fail e (f', _) => .fail e f'

end Treena
