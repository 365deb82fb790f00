import Verif.Model.History
import Verif.Spec.Models
/-!
# Specification: which calls destroy the forest

Only in terms of the results of the public accessors.
-/
set_option autoImplicit false

namespace Treena
variable {T : Type}

/-- The `InsertAs` value meant by an `AdoptAs` value relative to `anchor`. -/
def adoptPlace (anchor : Nat) : AdoptAs → InsertAs
  | .firstChild => .firstChildOf anchor
  | .lastChild => .lastChildOf anchor
  | .previousSibling => .previousSiblingOf anchor
  | .nextSibling => .nextSiblingOf anchor

/-- `insert(x, dest)` requests the place where `x` already is (according to the accessors), and it is not the
place "first child" of an only child. -/
def InPlace (f : Forest T) (x : Nat) : InsertAs → Prop
  | .firstChildOf a => f.firstChildId a = .ok (some x) ∧ f.lastChildId a ≠ .ok (some x)
  | .lastChildOf a => f.lastChildId a = .ok (some x)
  | .previousSiblingOf a => f.prevSiblingId a = .ok (some x)
  | .nextSiblingOf a => f.nextSiblingId a = .ok (some x)

/-- The calls that destroy a consistent forest: in-place insertions, and a `remove_hooked` whose hook panics
before the root of the removed tree is dead. -/
def Op.Harmful (f : Forest T) : Op T → Prop
  | .insert x dest => InPlace f x dest
  | .tryAdopt self x dest => InPlace f x (adoptPlace self dest)
  | .adopt self x dest => InPlace f x (adoptPlace self dest)
  | .removeHooked _ hook c x =>
      ∃ e f' c', Forest.removeHooked hook x (f, c) = .fail e (f', c') ∧ f'.isAlive x = true
  | _ => False

/-- A history none of whose calls is harmful at the moment it is made. -/
def Careful (cap : Nat) : Forest T → List (Op T) → Prop
  | _, [] => True
  | f, op :: ops => ¬ op.Harmful f ∧ Careful cap (Op.step cap f op) ops

/-- The call returned normally, and not with an `Err`. -/
def Op.succeeds (cap : Nat) (f : Forest T) : Op T → Bool
  | .createRoot d => plain (Forest.createRoot cap d f)
  | .createInsert d dest => plain (Forest.createInsert cap d dest f)
  | .setData id v => plain (Forest.setData id v f)
  | .insert x dest => noErr (Forest.insert x dest f)
  | .detach x => plain (Forest.detach x f)
  | .detachSingle x => noErr (Forest.detachSingle x f)
  | .remove x => plain (Forest.remove x f)
  | .removeHooked _ hook c x => plain (Forest.removeHooked hook x (f, c))
  | .removeHookedPanicSafe _ hook c x => plain (Forest.removeHookedPanicSafe hook x (f, c))
  | .cloneLocal _ cl hook c x => plain (Forest.cloneLocalTreeWithIdMapping cap cl hook x (f, c))
  | .cloneForeign _ cl hook c fsrc x => plain (Forest.cloneForeignTreeWithIdMapping cap cl hook fsrc x (f, c))
  | .nodeCreate self d dest => f.isAlive self && plain (NodeMut.create cap self d dest f)
  | .tryAdopt self x dest => f.isAlive self && noErr (NodeMut.tryAdopt self x dest f)
  | .adopt self x dest => f.isAlive self && plain (NodeMut.adopt self x dest f)
  | .nest d calls => plain (nestBuild cap d calls f)
  | .chain d calls => plain (chainBuild cap d calls f)
where
  /-- returned -/
  plain {σ α : Type} : Res σ α → Bool
    | .ok _ _ => true
    | .fail _ _ => false
  /-- returned `Ok` -/
  noErr {σ α : Type} : Res σ (Except StructureError α) → Bool
    | .ok (.ok _) _ => true
    | .ok (.error _) _ => false
    | .fail _ _ => false

/-- A history all of whose calls return normally, and none with an `Err`. -/
def Smooth (cap : Nat) : Forest T → List (Op T) → Prop
  | _, [] => True
  | f, op :: ops => op.succeeds cap f = true ∧ Smooth cap (Op.step cap f op) ops

/-- `ClimbsTo f x l`: following `parent_id` from `x`, one visits exactly `l` and ends at a root. -/
inductive ClimbsTo (f : Forest T) : Nat → List Nat → Prop where
  | root {x : Nat} : f.parentId x = .ok none → ClimbsTo f x [x]
  | step {x p : Nat} {l : List Nat} : f.parentId x = .ok (some p) → ClimbsTo f p l → ClimbsTo f x (x :: l)

/-- The live nodes. -/
def Forest.liveNodes (f : Forest T) : List Nat := (List.range f.data.length).filter f.isAlive

end Treena
