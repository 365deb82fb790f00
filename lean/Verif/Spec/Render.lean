import Verif.Spec.Tree
/-!
# Specification: ASCII rendering of a tree of texts

The usual `tree`-like picture: the lines of the label of a node, then the pictures of its children, each
indented by `"|-- "` on its first line and `"|   "` on the others, the last child by `` "`-- " `` and blanks.
-/

set_option autoImplicit false

namespace Treena
namespace Render

/-- The lines of a text. -/
def splitLines : List Char → List (List Char)
  | [] => [[]]
  | c :: cs =>
    if c = '\n' then [] :: splitLines cs
    else
      match splitLines cs with
      | [] => [[c]]
      | l :: ls => (c :: l) :: ls

/-- Lines joined by newlines. -/
def joinLines : List (List Char) → List Char
  | [] => []
  | [l] => l
  | l :: l' :: ls => l ++ '\n' :: joinLines (l' :: ls)

/-- Put `first` before the first line and `rest` before the others. -/
def indent (first rest : List Char) : List (List Char) → List (List Char)
  | [] => []
  | l :: ls => (first ++ l) :: ls.map (rest ++ ·)

mutual
/-- The lines of the picture of a tree. -/
def lines : Tree (List Char) → List (List Char)
  | .node a ts => splitLines a ++ linesL ts
/-- The lines of the pictures of sibling trees. -/
def linesL : List (Tree (List Char)) → List (List Char)
  | [] => []
  | t :: ts =>
    (if ts.isEmpty then indent ['`', '-', '-', ' '] [' ', ' ', ' ', ' '] (lines t)
      else indent ['|', '-', '-', ' '] ['|', ' ', ' ', ' '] (lines t)) ++ linesL ts
end

/-- The picture of a tree. -/
def render (t : Tree (List Char)) : List Char := joinLines (lines t)

/-- A text that fills exactly one line. -/
def OneLine (s : List Char) : Prop := s ≠ [] ∧ '\n' ∉ s

/-- A text that leaves the cursor behind the beginning of a line. -/
def Filled (s : List Char) : Prop := ∃ c, s.getLast? = some c ∧ c ≠ '\n'

/-- The condition on the text of a node other than the root, given as the pieces `cs` it is written in,
under which `debug_print` shows it correctly: either it is a single non-empty line; or its last line is not
empty, its first line does not arrive in one piece with its newline, and the node either is not a last
child or is a child of the printed root. -/
def OkText (depth : Nat) (isLast : Bool) (cs : List (List Char)) : Prop :=
  OneLine cs.flatten ∨
    (Filled cs.flatten ∧ (∃ c cs', cs.filter (fun c => !c.isEmpty) = c :: cs' ∧ '\n' ∉ c) ∧
      (isLast = false ∨ depth = 1))

mutual
/-- `OkText` for all nodes of a tree whose root is at the given depth. -/
def Ok (depth : Nat) (isLast : Bool) : Tree (List (List Char)) → Prop
  | .node cs ts => OkText depth isLast cs ∧ OkL (depth + 1) ts
def OkL (depth : Nat) : List (Tree (List (List Char))) → Prop
  | [] => True
  | t :: ts => Ok depth ts.isEmpty t ∧ OkL depth ts
end

/-- The whole printed tree: the text of the root may have several lines, the last one not being empty. -/
def OkTree (t : Tree (List (List Char))) : Prop := Filled t.root.flatten ∧ OkL 1 t.subs

/-- What can be read off an output whatever the texts are.  `m` is the output with each character marked by the
node whose data it belongs to (`none` for decoration):
* the data characters are the texts of the nodes in the given order, complete and unchanged;
* decoration consists of the drawing characters, blanks and newlines;
* behind a data character on the same line there is only data of the same node, so that no line shows data
  of two nodes and nothing is drawn behind the data. -/
structure Faithful (order : List Nat) (text : Nat → List Char) (m : List (Char × Option Nat)) : Prop where
  data : m.filterMap (fun p => p.2.map fun y => (p.1, y)) = order.flatMap fun y => (text y).map fun c => (c, y)
  decoration : ∀ c, (c, none) ∈ m → c = '|' ∨ c = '-' ∨ c = '`' ∨ c = ' ' ∨ c = '\n'
  line : ∀ A a x c o B, m = A ++ (a, some x) :: (c, o) :: B → a = '\n' ∨ o = some x ∨ (o = none ∧ c = '\n')

end Render
end Treena
