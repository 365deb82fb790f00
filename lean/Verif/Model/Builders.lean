import Verif.Model.Forest
/-!
# Model of `src/dynamic/forest/nest_builder.rs` and `src/dynamic/forest/chain_builder.rs`

A builder mutably borrows a forest; the model keeps the forest inside the builder's state.
-/

set_option autoImplicit false

namespace Treena

/-! ### `NestTreeBuilder` -/

/-- `struct NestTreeBuilder`, `nest_builder.rs` 46-53. -/
structure Nest (T : Type) where
  forest : Forest T
  root : Nat
  current : Option Nat

namespace Nest
variable {T : Type}

/-- Run an operation on `self.forest`. -/
def onForest {α : Type} (m : M (Forest T) α) : M (Nest T) α :=
  M.zoom (fun b => b.forest) (fun f b => { b with forest := f }) m

/-- `Result::expect`, in the state `self`. -/
def expectOk {σ : Type} (r : Except StructureError Unit) (msg : String) : M σ Unit :=
  match r with
  | .ok () => pure ()
  | .error _ => M.panic msg

/-- `NestTreeBuilder::new`, `nest_builder.rs` 57-64.  A panic of `create_root` leaves only the forest. -/
def new (cap : Nat) (d : T) (f : Forest T) : Res (Forest T) (Nest T) :=
  match Forest.createRoot cap d f with
  | .ok root f' => .ok { forest := f', root := root, current := none } f'
  | .fail e f' => .fail e f'

/-- The message of the two `expect`s in `add_child`. -/
def addMsg : String :=
  "[consistency] `root` and `current` is created by `NestTreeBuilder`, and must be consistent"

/-- The `match self.current` of `add_child`, `nest_builder.rs` 69-80. -/
def place (newId : Nat) : M (Nest T) Unit := fun b =>
  match b.current with
  | some prevSib =>
    (do
      let r ← onForest (Forest.insert newId (.nextSiblingOf prevSib))
      expectOk r addMsg : M (Nest T) Unit) b
  | none =>
    (do
      let r ← onForest (Forest.insert newId (.firstChildOf b.root))
      expectOk r addMsg : M (Nest T) Unit) b

/-- `NestTreeBuilder::add_child`, `nest_builder.rs` 67-82. -/
def addChild (cap : Nat) (d : T) : M (Nest T) Unit := do
  let newId ← onForest (Forest.createRoot cap d)
  place newId
  M.modify fun b => { b with current := some newId }

/-- `NestTreeBuilder::create_tree`, `nest_builder.rs` 85-101; `f` is the closure.  If the closure panics,
`root` and `current` keep the values the closure left. -/
def createTree (cap : Nat) (d : T) (f : M (Nest T) Unit) : M (Nest T) Unit := do
  addChild cap d
  let newRoot ← M.read fun b => expect b.current "[consistency] `add_child` makes `current` `Some`"
  M.modify fun b => { b with current := none }
  let oldRoot ← M.read fun b => .ok b.root
  M.modify fun b => { b with root := newRoot }
  f
  M.modify fun b => { b with current := some newRoot }
  M.modify fun b => { b with root := oldRoot }

/-- `NestTreeBuilder::root`, `nest_builder.rs` 103-107. -/
def getRoot (b : Nest T) : Nat := b.root

end Nest

/-- What user code does with a `&mut NestTreeBuilder`: calls `add_child`, calls `create_tree` with a
closure that again does such things, or panics.  (Closures that catch panics or exchange the builder with another one:
`Model/Wild.lean`.) -/
inductive NestCall (T : Type) where
  | addChild (d : T)
  | createTree (d : T) (closure : List (NestCall T))
  | boom

namespace NestCall
variable {T : Type}

mutual
/-- One call. -/
def exec (cap : Nat) : NestCall T → M (Nest T) Unit
  | .addChild d => Nest.addChild cap d
  | .createTree d cs => Nest.createTree cap d (execL cap cs)
  | .boom => M.panic "user code panicked"
/-- Calls one after the other. -/
def execL (cap : Nat) : List (NestCall T) → M (Nest T) Unit
  | [] => pure ()
  | c :: cs => do
    exec cap c
    execL cap cs
end

end NestCall

/-- `let mut b = NestTreeBuilder::new(forest, data); <calls>; b.root()`. -/
def nestBuild {T : Type} (cap : Nat) (d : T) (cs : List (NestCall T)) : M (Forest T) Nat := fun f =>
  match Nest.new cap d f with
  | .fail e f' => .fail e f'
  | .ok b _ =>
    match NestCall.execL cap cs b with
    | .ok () b' => .ok b'.getRoot b'.forest
    | .fail e b' => .fail e b'.forest

/-! ### `ChainTreeBuilder` -/

/-- `struct ChainTreeBuilder`, `chain_builder.rs` 150-158. -/
structure Chain (T : Type) where
  forest : Forest T
  root : Nat
  current : Nat

namespace Chain
variable {T : Type}

/-- `ChainTreeBuilder::forest`, `forest_mut` (`chain_builder.rs` 171-183): access to `self.forest`. -/
def onForest {α : Type} (m : M (Forest T) α) : M (Chain T) α :=
  M.zoom (fun b => b.forest) (fun f b => { b with forest := f }) m

/-- `ChainTreeBuilder::new`, `chain_builder.rs` 162-169. -/
def new (cap : Nat) (d : T) (f : Forest T) : Res (Forest T) (Chain T) :=
  match Forest.createRoot cap d f with
  | .ok root f' => .ok { forest := f', root := root, current := root } f'
  | .fail e f' => .fail e f'

/-- `ChainTreeBuilder::root_id`, `chain_builder.rs` 185-190. -/
def rootId (b : Chain T) : Nat := b.root
/-- `ChainTreeBuilder::current_id`, `chain_builder.rs` 192-197. -/
def currentId (b : Chain T) : Nat := b.current

/-- `ChainTreeBuilder::child`, `chain_builder.rs` 199-206. -/
def child (cap : Nat) (d : T) : M (Chain T) Unit := fun b =>
  (do
    let new ← onForest (Forest.createInsert cap d (.lastChildOf b.current))
    M.modify fun b => { b with current := new } : M (Chain T) Unit) b

/-- `ChainTreeBuilder::sibling`, `chain_builder.rs` 208-215. -/
def sibling (cap : Nat) (d : T) : M (Chain T) Unit := fun b =>
  (do
    let new ← onForest (Forest.createInsert cap d (.nextSiblingOf b.current))
    M.modify fun b => { b with current := new } : M (Chain T) Unit) b

/-- `self.forest.node(self.current).expect(..).parent_id()`, `chain_builder.rs` 219-223, 234-238. -/
def parentOfCurrent (b : Chain T) : R (Option Nat) :=
  match expect (b.forest.node b.current) "[consistency] nodes in the tree must be alive" with
  | .error e => .error e
  | .ok n => b.forest.parentId n

/-- `ChainTreeBuilder::try_parent`, `chain_builder.rs` 217-226; the result tells whether `Some` was
returned. -/
def tryParent : M (Chain T) Bool := do
  let p ← M.read parentOfCurrent
  match p with
  | none => pure false
  | some parent => do
    M.modify fun b => { b with current := parent }
    pure true

/-- `ChainTreeBuilder::parent`, `chain_builder.rs` 228-242. -/
def parent : M (Chain T) Unit := do
  let p ← M.read parentOfCurrent
  let parent ← M.read fun _ => expect p "[precondition] the current node should not be the root"
  M.modify fun b => { b with current := parent }

end Chain

/-- One call on a `ChainTreeBuilder`. -/
inductive ChainCall (T : Type) where
  | child (d : T)
  | sibling (d : T)
  | parent
  | tryParent

namespace ChainCall
variable {T : Type}

/-- One call. -/
def exec (cap : Nat) : ChainCall T → M (Chain T) Unit
  | .child d => Chain.child cap d
  | .sibling d => Chain.sibling cap d
  | .parent => Chain.parent
  | .tryParent => do let _ ← Chain.tryParent

/-- Calls one after the other. -/
def execL (cap : Nat) : List (ChainCall T) → M (Chain T) Unit
  | [] => pure ()
  | c :: cs => do
    exec cap c
    execL cap cs

end ChainCall

/-- `let mut b = ChainTreeBuilder::new(forest, data); <calls>; b.root_id()`. -/
def chainBuild {T : Type} (cap : Nat) (d : T) (cs : List (ChainCall T)) : M (Forest T) Nat := fun f =>
  match Chain.new cap d f with
  | .fail e f' => .fail e f'
  | .ok b _ =>
    match ChainCall.execL cap cs b with
    | .ok () b' => .ok b'.rootId b'.forest
    | .fail e b' => .fail e b'.forest

end Treena
