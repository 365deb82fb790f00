import Verif.Spec.Careful
import Verif.Spec.Builder
import Verif.Spec.Remove
/-!
# Specification: calls that meet the documented preconditions
-/
set_option autoImplicit false

namespace Treena
variable {T : Type}

/-- The call returned (a value or an `Err`): it neither panicked nor ran for ever. -/
def Op.returns (cap : Nat) (f : Forest T) : Op T → Bool
  | .createRoot d => plain (Forest.createRoot cap d f)
  | .createInsert d dest => plain (Forest.createInsert cap d dest f)
  | .setData id v => plain (Forest.setData id v f)
  | .insert x dest => plain (Forest.insert x dest f)
  | .detach x => plain (Forest.detach x f)
  | .detachSingle x => plain (Forest.detachSingle x f)
  | .remove x => plain (Forest.remove x f)
  | .removeHooked _ hook c x => plain (Forest.removeHooked hook x (f, c))
  | .removeHookedPanicSafe _ hook c x => plain (Forest.removeHookedPanicSafe hook x (f, c))
  | .cloneLocal _ cl hook c x => plain (Forest.cloneLocalTreeWithIdMapping cap cl hook x (f, c))
  | .cloneForeign _ cl hook c fsrc x => plain (Forest.cloneForeignTreeWithIdMapping cap cl hook fsrc x (f, c))
  | .nodeCreate self d dest => plain (NodeMut.create cap self d dest f)
  | .tryAdopt self x dest => plain (NodeMut.tryAdopt self x dest f)
  | .adopt self x dest => plain (NodeMut.adopt self x dest f)
  | .nest d calls => plain (nestBuild cap d calls f)
  | .chain d calls => plain (chainBuild cap d calls f)
where
  /-- returned -/
  plain {σ α : Type} : Res σ α → Bool
    | .ok _ _ => true
    | .fail _ _ => false

/-- The documented preconditions of `insert(x, dest)`: live nodes, and a parent for siblings. -/
def insertPre (s : Shape) (x : Nat) (dest : InsertAs) : Prop :=
  s.alive x = true ∧ s.alive dest.place.anchor = true ∧ s.placeParent dest.place ≠ none

/-- The request is possible: `insert` reports no error. -/
def insertPossible (s : Shape) (x : Nat) (dest : InsertAs) : Prop :=
  dest ≠ .previousSiblingOf x ∧ dest ≠ .nextSiblingOf x ∧
    ∀ P, s.placeParent dest.place = some P → ¬ AncOrSelf s.parent x P

/-- The documented preconditions of creating a node at `dest`. -/
def createPre (cap : Nat) (s : Shape) (dest : InsertAs) : Prop :=
  s.alive dest.place.anchor = true ∧ s.placeParent dest.place ≠ none ∧ s.size < cap

/-- Enough IDs are left to copy the tree at `x`. -/
def roomFor (cap : Nat) (s ssrc : Shape) (x : Nat) : Prop :=
  ∃ t, Tree.IsTree ssrc.kids t ∧ t.root = x ∧ s.size + t.count ≤ cap

/-- The call on the forest of shape `s` meets the documented preconditions: its arguments are live, callbacks and
`T::clone` do not panic, IDs are not exhausted. -/
def Op.WellUsed (cap : Nat) (s : Shape) : Op T → Prop
  | .createRoot _ => s.size < cap
  | .createInsert _ dest => createPre cap s dest
  | .setData _ _ => True
  | .insert x dest => insertPre s x dest
  | .detach x => s.alive x = true
  | .detachSingle x => s.alive x = true
  | .remove x => s.alive x = true
  | .removeHooked _ hook _ x => s.alive x = true ∧ NeverPanics hook
  | .removeHookedPanicSafe _ hook _ x => s.alive x = true ∧ NeverPanics hook
  | .cloneLocal _ cl hook _ x =>
      s.alive x = true ∧ NeverPanics (pairHook hook) ∧ (∀ d, cl d ≠ none) ∧ roomFor cap s s x
  | .cloneForeign _ cl hook _ fsrc x =>
      ∃ ssrc, Models fsrc ssrc ∧ ssrc.alive x = true ∧ NeverPanics (pairHook hook) ∧ (∀ d, cl d ≠ none) ∧
        roomFor cap s ssrc x
  | .nodeCreate self _ dest => createPre cap s (adoptPlace self dest)
  | .tryAdopt self x dest => insertPre s x (adoptPlace self dest)
  | .adopt self x dest => insertPre s x (adoptPlace self dest) ∧ insertPossible s x (adoptPlace self dest)
  | .nest d calls =>
      NestCall.calmL calls = true ∧ s.size + (Tree.node d (NestCall.treesL calls)).count ≤ cap
  | .chain d calls => s.size < cap ∧ ((Cursor.mk ⟨s.size, d, []⟩ []).steps cap calls).isSome = true

/-- The one request on which the code panics nevertheless: `LastChildOf` for the only child. -/
def Op.LastOfOnly (s : Shape) : Op T → Prop
  | .insert x dest => ∃ P, dest = .lastChildOf P ∧ s.kids P = [x]
  | .tryAdopt self x dest => dest = .lastChild ∧ s.kids self = [x]
  | .adopt self x dest => dest = .lastChild ∧ s.kids self = [x]
  | _ => False

end Treena
