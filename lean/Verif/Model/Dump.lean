import Mathlib.Data.Nat.Digits.Defs
import Verif.Model.Forest
import Verif.Model.DebugPrint
/-!
# `{:?}` and `{:#?}` of a forest

The derived `Debug` of `Forest` and `Hierarchy`, the hand-written ones of `Neighbors` and of the ID types, and `Display` of
`StructureError`.  A text is what a formatter that does not fail has been given in all.  `alt` is the flag of `{:#?}`.

Simplifications: width, fill and precision are not modelled (they are passed on to the data's formatter only: the ID
types' `write!(f, "NodeId({:?})", _)` starts afresh); the data's formatter is a function of the datum and `alt`.
-/
set_option autoImplicit false

namespace Treena
namespace Dump

/-- A decimal digit. -/
def digit (d : Nat) : Char := Char.ofNat (d + 48)

/-- `Display` / `Debug` of `usize` (`core::fmt::num`), to which `nonmax.rs` 7-19 and 78 refer. -/
def decimal (n : Nat) : Text := if n = 0 then ['0'] else ((Nat.digits 10 n).reverse).map digit

/-- `Debug` of the internal ID types, `id.rs` 108-113; the same with and without `alt`. -/
def id (n : Nat) : Text := "NodeId(".toList ++ decimal n ++ ")".toList

/-- `OptNodeId`, `hierarchy.rs` 674-684. -/
def optId : Option Nat → Text
  | some n => id n
  | none => "None".toList

/-- `core::fmt::builders::PadAdapter`: four blanks before each line; `b` says that a line begins. -/
def indentFrom : Bool → Text → Text
  | _, [] => []
  | b, c :: cs => (if b then "    ".toList else []) ++ c :: indentFrom (c == '\n') cs

/-- A text written through a fresh `PadAdapter`. -/
def indent (t : Text) : Text := indentFrom true t

/-- One field by `core::fmt::DebugStruct::field`. -/
def field (alt first : Bool) (p : Text × Text) : Text :=
  if alt then indent (p.1 ++ ": ".toList ++ p.2 ++ ",\n".toList)
  else (if first then [] else ", ".toList) ++ p.1 ++ ": ".toList ++ p.2

/-- Fields after the first. -/
def fields (alt : Bool) : List (Text × Text) → Text
  | [] => []
  | p :: ps => field alt false p ++ fields alt ps

/-- `core::fmt::DebugStruct`: name, fields (at least one), `finish`. -/
def struct (alt : Bool) (name : Text) (p : Text × Text) (ps : List (Text × Text)) : Text :=
  name ++ (if alt then " {\n".toList else " { ".toList) ++ field alt true p ++ fields alt ps ++
    (if alt then "}".toList else " }".toList)

/-- Entries after the first by `core::fmt::DebugInner::entry`. -/
def entries (alt : Bool) : List Text → Text
  | [] => []
  | t :: ts => (if alt then indent (t ++ ",\n".toList) else ", ".toList ++ t) ++ entries alt ts

/-- `core::fmt::DebugList`, by which `Vec<T>` is formatted. -/
def list (alt : Bool) : List Text → Text
  | [] => "[]".toList
  | t :: ts => (if alt then "[\n".toList ++ indent (t ++ ",\n".toList) else '[' :: t) ++ entries alt ts ++ "]".toList

/-- Derived `Debug` of `Option<T>` (`core::fmt::DebugTuple`). -/
def opt (alt : Bool) : Option Text → Text
  | none => "None".toList
  | some t => "Some(".toList ++ (if alt then '\n' :: indent (t ++ ",\n".toList) else t) ++ ")".toList

/-- `Debug` of `Neighbors`, `hierarchy.rs` 672-694. -/
def neighbors (alt : Bool) (nb : Neighbors) : Text :=
  struct alt "Neighbors".toList ("parent".toList, optId nb.parent)
    [("prev_sibling_cyclic".toList, optId nb.prevCyc), ("next_sibling".toList, optId nb.next),
      ("first_child".toList, optId nb.first)]

/-- Derived `Debug` of `Hierarchy`, `hierarchy.rs` 14-18. -/
def hier (alt : Bool) (h : Hier) : Text :=
  struct alt "Hierarchy".toList ("neighbors".toList, list alt (h.nbrs.map (neighbors alt))) []

end Dump

/-- Derived `Debug` of `Forest`, `forest.rs` 116-128; `dbg` is the data's. -/
def Forest.dump {T : Type} (alt : Bool) (dbg : Bool → T → Text) (f : Forest T) : Text :=
  Dump.struct alt "Forest".toList ("hierarchy".toList, Dump.hier alt f.hier)
    [("data".toList, Dump.list alt (f.data.map fun d => Dump.opt alt (d.map (dbg alt))))]

/-- `Display` of `StructureError`, `forest.rs` 1962-1971. -/
def StructureError.display : StructureError → Text
  | .ancestorDescendantLoop => "attempt to make a node the ancestor of itself".toList
  | .unorderableSiblings => "attempt to make a node the sibling of itself".toList
  | .siblingsWithoutParent => "attempt to add sibling nodes without a parent".toList

end Treena
