import Verif.Model.Builders
/-!
# Histories: sequences of calls of the public API

`Op` is one call of a mutating public function; `Op.step` is the forest after that call, no matter
whether it returned or panicked (the panic being caught by the caller).
-/

set_option autoImplicit false

namespace Treena

/-- A call of a mutating public function of `Forest`, `NodeMut` or one of the builders. -/
inductive Op (T : Type) : Type 1 where
  /-- `forest.create_root(d)` -/
  | createRoot (d : T)
  /-- `forest.create_insert(d, dest)` -/
  | createInsert (d : T) (dest : InsertAs)
  /-- `forest.data_mut(id)` and a write through the reference -/
  | setData (id : Nat) (v : T)
  /-- `forest.insert(node, dest)` -/
  | insert (node : Nat) (dest : InsertAs)
  /-- `forest.detach(node)` -/
  | detach (node : Nat)
  /-- `forest.detach_single(node)` -/
  | detachSingle (node : Nat)
  /-- `forest.remove(node)` -/
  | remove (node : Nat)
  /-- `forest.remove_hooked(node, hook)` -/
  | removeHooked (S : Type) (hook : Forest.Hook S T) (captured : S) (node : Nat)
  /-- `forest.remove_hooked_panic_safe(node, hook)` -/
  | removeHookedPanicSafe (S : Type) (hook : Forest.Hook S T) (captured : S) (node : Nat)
  /-- `forest.clone_local_tree_with_id_mapping(src, hook)`; `cl` is `T::clone` -/
  | cloneLocal (S : Type) (cl : T → Option T) (hook : Forest.MapHook S) (captured : S) (src : Nat)
  /-- `forest.clone_foreign_tree_with_id_mapping(src, hook)`, the source being node `src` of `fsrc` -/
  | cloneForeign (S : Type) (cl : T → Option T) (hook : Forest.MapHook S) (captured : S)
      (fsrc : Forest T) (src : Nat)
  /-- `forest.node_mut(self).create(d, dest)`, if the `NodeMut` exists -/
  | nodeCreate (self : Nat) (d : T) (dest : AdoptAs)
  /-- `forest.node_mut(self).try_adopt(node, dest)`, if the `NodeMut` exists -/
  | tryAdopt (self node : Nat) (dest : AdoptAs)
  /-- `forest.node_mut(self).adopt(node, dest)`, if the `NodeMut` exists -/
  | adopt (self node : Nat) (dest : AdoptAs)
  /-- a use of a `NestTreeBuilder` -/
  | nest (d : T) (calls : List (NestCall T))
  /-- a use of a `ChainTreeBuilder` -/
  | chain (d : T) (calls : List (ChainCall T))

namespace Op
variable {T : Type}

/-- Only the forest of the state `(forest, captured state of the callback)`. -/
def forestOf {S α : Type} (r : Res (Forest T × S) α) : Forest T := r.state.1

/-- The forest after the call, returned or panicked. -/
def step (cap : Nat) (f : Forest T) : Op T → Forest T
  | .createRoot d => (Forest.createRoot cap d f).state
  | .createInsert d dest => (Forest.createInsert cap d dest f).state
  | .setData id v => (Forest.setData id v f).state
  | .insert x dest => (Forest.insert x dest f).state
  | .detach x => (Forest.detach x f).state
  | .detachSingle x => (Forest.detachSingle x f).state
  | .remove x => (Forest.remove x f).state
  | .removeHooked _ hook c x => forestOf (Forest.removeHooked hook x (f, c))
  | .removeHookedPanicSafe _ hook c x => forestOf (Forest.removeHookedPanicSafe hook x (f, c))
  | .cloneLocal _ cl hook c x => forestOf (Forest.cloneLocalTreeWithIdMapping cap cl hook x (f, c))
  | .cloneForeign _ cl hook c fsrc x =>
      forestOf (Forest.cloneForeignTreeWithIdMapping cap cl hook fsrc x (f, c))
  | .nodeCreate self d dest =>
      if f.isAlive self then (NodeMut.create cap self d dest f).state else f
  | .tryAdopt self x dest => if f.isAlive self then (NodeMut.tryAdopt self x dest f).state else f
  | .adopt self x dest => if f.isAlive self then (NodeMut.adopt self x dest f).state else f
  | .nest d calls => (nestBuild cap d calls f).state
  | .chain d calls => (chainBuild cap d calls f).state

/-- The value returned by a call, if it returned. -/
def valueOf {σ α : Type} : Res σ α → Option α
  | .ok a _ => some a
  | .fail _ _ => none

/-- The ID returned by a creating call, if it returned (for the builders: the ID of the root). -/
def newId (cap : Nat) (f : Forest T) : Op T → Option Nat
  | .createRoot d => valueOf (Forest.createRoot cap d f)
  | .createInsert d dest => valueOf (Forest.createInsert cap d dest f)
  | .cloneLocal _ cl hook c x => valueOf (Forest.cloneLocalTreeWithIdMapping cap cl hook x (f, c))
  | .cloneForeign _ cl hook c fsrc x =>
      valueOf (Forest.cloneForeignTreeWithIdMapping cap cl hook fsrc x (f, c))
  | .nodeCreate self d dest => if f.isAlive self then valueOf (NodeMut.create cap self d dest f) else none
  | .nest d calls => valueOf (nestBuild cap d calls f)
  | .chain d calls => valueOf (chainBuild cap d calls f)
  | _ => none

/-- The forest after a sequence of calls. -/
def run (cap : Nat) (f : Forest T) (ops : List (Op T)) : Forest T := ops.foldl (step cap) f

end Op

/-- `f` is the state of a forest after some sequence of calls starting with `Forest::new()`. -/
def Reachable {T : Type} (cap : Nat) (f : Forest T) : Prop := ∃ ops, f = Op.run cap Forest.new ops

end Treena
