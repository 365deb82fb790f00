import Verif.Spec.Plain
import Verif.Spec.Careful
import Verif.Spec.History
/-!
# Specification: parts of a forest

`Q` is a set of node IDs.  `SameIn Q f g` says that two forests look the same inside `Q` and that no link leads from a
node of `Q` out of it; nothing is said about the rest of the two forests, which may be anything.
-/
set_option autoImplicit false

namespace Treena
variable {T : Type}

/-- The node `y` is stored in one of the four link fields of a record. -/
def Neighbors.mentions (nb : Neighbors) (y : Nat) : Prop :=
  nb.parent = some y ∨ nb.prevCyc = some y ∨ nb.next = some y ∨ nb.first = some y

/-- The part `Q` of `f` is separate: links of live nodes of `Q` stay in `Q`.  (IDs that can still be handed out
belong to every part; `cap` is the number of IDs the ID type can express.) -/
structure Separate (cap : Nat) (Q : Nat → Prop) (f : Forest T) : Prop where
  closed : ∀ x, Q x → ∀ nb, f.hier.neighbors x = some nb → ∀ y, nb.mentions y → Q y
  fresh : ∀ x, f.hier.nbrs.length ≤ x ∨ f.data.length ≤ x → x < cap → Q x

/-- `f` and `g` have handed out the same IDs, are the same in the part `Q`, which is separate in them. -/
structure SameIn (cap : Nat) (Q : Nat → Prop) (f g : Forest T) : Prop where
  size : f.hier.nbrs.length = g.hier.nbrs.length
  dataSize : f.data.length = g.data.length
  links : ∀ x, Q x → f.hier.neighbors x = g.hier.neighbors x
  data : ∀ x, Q x → f.getData x = g.getData x
  separate : Separate cap Q f

/-- Nothing outside `Q` differs between `f` and `g`. -/
structure SameOut (cap : Nat) (Q : Nat → Prop) (f g : Forest T) : Prop where
  links : ∀ x, ¬ Q x → g.hier.nbrs[x]? = f.hier.nbrs[x]?
  data : ∀ x, ¬ Q x → x < cap → g.data[x]? = f.data[x]?

/-- The node IDs given to a call. -/
def Op.ids : Op T → List Nat
  | .createRoot _ => []
  | .createInsert _ dest => [dest.place.anchor]
  | .setData x _ => [x]
  | .insert x dest => [x, dest.place.anchor]
  | .detach x => [x]
  | .detachSingle x => [x]
  | .remove x => [x]
  | .removeHooked _ _ _ x => [x]
  | .removeHookedPanicSafe _ _ _ x => [x]
  | .cloneLocal _ _ _ _ x => [x]
  | .cloneForeign _ _ _ _ _ _ => []
  | .nodeCreate self _ _ => [self]
  | .tryAdopt self x _ => [self, x]
  | .adopt self x _ => [self, x]
  | .nest _ _ => []
  | .chain _ _ => []

/-- The nodes given to a call whose trees the call may change.  Copying does not change the tree that is copied. -/
def Op.targets : Op T → List Nat
  | .cloneLocal _ _ _ _ _ => []
  | op => op.ids

/-- The node IDs given to a call. -/
def Req.ids : Req T → List Nat
  | .near x _ => [x]
  | .nearEnds x => [x]
  | .drop x => [x]
  | .dup x _ => [x]
  | .alive x => [x]
  | .data x => [x]
  | .link x _ => [x]
  | .ends x => [x]
  | .dft x _ => [x]
  | .shallow x _ _ => [x]
  | .bft x _ => [x]
  | .abft x _ => [x]
  | .ancestors x _ _ => [x]
  | .row x _ _ => [x]
  | .createRoot _ => []
  | .createInsert _ dest => [dest.place.anchor]
  | .setData x _ => [x]
  | .insert x dest => [x, dest.place.anchor]
  | .detach x => [x]
  | .detachSingle x => [x]
  | .remove x _ => [x]
  | .removeSafe x _ => [x]
  | .copy x _ _ => [x]
  | .nodeCreate self _ _ => [self]
  | .tryAdopt self x _ => [self, x]
  | .adopt self x _ => [self, x]
  | .nest _ _ => []
  | .chain _ _ => []
  | .print x _ => [x]

/-- Every link of a live node is an ID that has been handed out. -/
def Bounded (f : Forest T) : Prop :=
  ∀ x nb, f.hier.neighbors x = some nb → ∀ y, nb.mentions y → y < f.hier.nbrs.length

/-- `y` can be reached from `x` through the stored links of live nodes. -/
inductive LinkPath (f : Forest T) (x : Nat) : Nat → Prop where
  | refl : LinkPath f x x
  | step {y z : Nat} {nb : Neighbors} : LinkPath f x y → f.hier.neighbors y = some nb → nb.mentions z → LinkPath f x z

/-- `y` can be reached from `x` by going to parents and to children. -/
inductive Connected (f : Forest T) (x : Nat) : Nat → Prop where
  | refl : Connected f x x
  | up {y p : Nat} : Connected f x y → f.parentId y = .ok (some p) → Connected f x p
  | down {y p : Nat} : Connected f x p → f.parentId y = .ok (some p) → Connected f x y

open Classical in
/-- `f` with the nodes of `B` marked as removed and nothing else changed. -/
noncomputable def Forest.without (f : Forest T) (B : Nat → Prop) : Forest T :=
  ⟨⟨(List.range f.hier.nbrs.length).map fun x => if B x then Neighbors.removed else (f.hier.neighbors x).getD Neighbors.removed⟩,
   (List.range f.data.length).map fun x => if B x then none else f.getData x⟩

open Classical in
/-- The tainted nodes after a call, given the tainted nodes before.  Unless the call is given a live tainted node
(other than for copying it) or is harmful, nothing changes; otherwise the trees of the nodes given to the call and the nodes it makes
become tainted. -/
noncomputable def taintStep (cap : Nat) (f : Forest T) (B : Nat → Prop) (op : Op T) : Nat → Prop :=
  if (∃ x ∈ op.targets, B x ∧ f.isAlive x = true) ∨ op.Harmful f then fun y =>
    B y ∨ (f.isAlive y = true ∧ ∃ x ∈ op.targets, Connected f x y) ∨ (f.issued ≤ y ∧ y < (op.step cap f).issued)
  else B

/-- The tainted nodes after a history. -/
noncomputable def taint (cap : Nat) : Forest T → (Nat → Prop) → List (Op T) → Nat → Prop
  | _, B, [] => B
  | f, B, op :: ops => taint cap (op.step cap f) (taintStep cap f B op) ops

end Treena
