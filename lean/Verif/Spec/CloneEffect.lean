import Verif.Spec.Clone
import Verif.Model.CloneEffect
/-!
# Specification: what a copy does to the rest of the program

`replay` is the sequence of calls made by a copy, written out: for each source node in preorder `T::clone`, then (if there
is an ID left) the callback.
-/
set_option autoImplicit false

namespace Treena
variable {T S : Type}

/-- The panic of the callback. -/
def mapPanic : Fail := .panic "add_mapping panicked"

/-- Copy the nodes `l` (ID and datum), the next ID being `n`.  Result: the data of the copies made, the state of the
program afterwards, and the panic, if any. -/
def replay (cap : Nat) (cl : Forest.CloneFn S T) (hook : Forest.MapHook S) : Nat → S → List (Nat × T) →
    List T × S × Option Fail
  | _, σ, [] => ([], σ, none)
  | n, σ, (y, d) :: l =>
    match cl σ d with
    | .error σ' => ([], σ', some clonePanic)
    | .ok (c, σ1) =>
      if cap ≤ n then ([], σ1, some overflow)
      else match hook σ1 y n with
        | .error σ' => ([c], σ', some mapPanic)
        | .ok σ2 => (c :: (replay cap cl hook (n + 1) σ2 l).1, (replay cap cl hook (n + 1) σ2 l).2)

/-- Nodes with their data. -/
def withData (dat : Nat → Option T) (ys : List Nat) : List (Nat × T) := ys.filterMap fun y => (dat y).map fun d => (y, d)

/-- How a call ends. -/
def ends? {α : Type} (a : α) (e : Option Fail) (st : Forest T × S) : Res (Forest T × S) α :=
  match e with
  | none => .ok a st
  | some e => .fail e st

/-- The call `run` made on the forest `f` of shape `s` copies the tree `t` whose data are `dat`, as prescribed by `replay`:
it ends with the same panic and the same state of the program, or returns the new root; the first nodes of the tree in
preorder get made, with consecutive IDs and the data given by `T::clone`, and the rest of the forest is untouched. -/
def CopiedBy (f : Forest T) (s : Shape) (cap : Nat) (cl : Forest.CloneFn S T) (hook : Forest.MapHook S) (dat : Nat → Option T)
    (t : Tree Nat) (σ : S) (run : Res (Forest T × S) Nat) : Prop :=
  ∃ g s',
    run = ends? s.size (replay cap cl hook s.size σ (withData dat t.preorder)).2.2
      (g, (replay cap cl hook s.size σ (withData dat t.preorder)).2.1) ∧
    Grown f s g s' ∧
    s'.size = s.size + (replay cap cl hook s.size σ (withData dat t.preorder)).1.length ∧
    g.data = f.data ++ (replay cap cl hook s.size σ (withData dat t.preorder)).1.map some ∧
    (∀ x, s.size ≤ x → x < s'.size → s'.alive x = true) ∧
    ∀ t' ∈ t.trunc (replay cap cl hook s.size σ (withData dat t.preorder)).1.length,
      Tree.IsTree s'.kids (t'.number s.size) ∧ s'.parent s.size = none

/-- Something the rest of the program gets to see of a copy. -/
inductive Seen (T : Type) where
  | cloned (d : T)
  | mapped (src dest : Nat)
deriving DecidableEq

/-- A `T::clone` that leaves a note in a list. -/
def noteClone (c : T → T) : Forest.CloneFn (List (Seen T)) T := fun l d => .ok (c d, l ++ [.cloned d])

/-- A callback that leaves a note in the same list. -/
def noteMap : Forest.MapHook (List (Seen T)) := fun l y n => .ok (l ++ [.mapped y n])

/-- The notes for the source nodes `l`, the next ID being `n`: one clone and one callback for each, in turn. -/
def notes : Nat → List (Nat × T) → List (Seen T)
  | _, [] => []
  | n, (y, d) :: l => .cloned d :: .mapped y n :: notes (n + 1) l

/-- `T::clone` for one datum after the other. -/
def cloneAll (cl : Forest.CloneFn S T) : S → List T → Except S (List T × S)
  | σ, [] => .ok ([], σ)
  | σ, d :: l =>
    match cl σ d with
    | .error σ' => .error σ'
    | .ok (c, σ1) =>
      match cloneAll cl σ1 l with
      | .error σ' => .error σ'
      | .ok (cs, σ') => .ok (c :: cs, σ')

/-- The live nodes in the order of their IDs. -/
def Shape.live (s : Shape) : List Nat := (List.range s.size).filter s.alive

end Treena
