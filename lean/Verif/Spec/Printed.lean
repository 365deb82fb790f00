import Verif.Spec.Tree
/-!
# Specification: what `debug_print` prints, exactly

The picture of `Spec/Render.lean` is what one expects; this is what is printed, for all texts and all ways in which
the formatters of the data split them into pieces.  The differences:
* a node whose text ends with a newline (or is empty) leaves the cursor at the beginning of a line, and the next node is
  printed on that line;
* a first line that arrives in one piece with its newline is preceded by three (four) blanks instead of one;
* the margin of the further lines of a last child ends with the bar of the nearest ancestor that is not a last child and
  four blanks, however deep the node is below it.
-/

set_option autoImplicit false

namespace Treena
namespace Printed

/-- A piece of text cut behind each of its newlines. -/
def cuts : List Char → List (List Char)
  | [] => []
  | c :: cs =>
    if c = '\n' then ['\n'] :: cuts cs
    else
      match cuts cs with
      | [] => [[c]]
      | l :: ls => (c :: l) :: ls

/-- The text ends with a newline. -/
def endsLine (c : List Char) : Bool := c.getLast? == some '\n'

/-- The margin below an ancestor (`last`: it is a last child). -/
def bar (last : Bool) : List Char := if last then [' ', ' ', ' ', ' '] else ['|', ' ', ' ', ' ']

/-- The margin of a line of the text of a node.  `path` tells of the ancestors of the node below the printed root, from the
top, and finally of the node itself, whether they are last children; `first`: the node's text had no newline yet; `nl`: what is
written first on the line ends it. -/
def margin (path : List Bool) (first nl : Bool) : List Char :=
  match path.reverse with
  | [] => []
  | last :: up =>
    if first then
      up.reverse.flatMap bar ++ (if last then ['`', '-', '-'] else ['|', '-', '-']) ++
        (if nl then (if last then [' ', ' ', ' ', ' '] else [' ', ' ', ' ']) else [' '])
    else if last then
      match up.dropWhile id with
      | [] => [' ', ' ', ' ', ' ']
      | _ :: up' => up'.reverse.flatMap bar ++ ['|', ' ', ' ', ' ', ' ']
    else path.flatMap bar

/-- The text of a node, given as the list of its cuts; `start`: the cursor is at the beginning of a line. -/
def body (path : List Bool) : (start first : Bool) → List (List Char) → List Char
  | _, _, [] => []
  | start, first, c :: cs =>
    (if start then margin path first (endsLine c) else []) ++ c ++ body path (endsLine c) (first && !endsLine c) cs

mutual
/-- The nodes of a tree in preorder, each with its path and its pieces of text. -/
def nodes (path : List Bool) : Tree (List (List Char)) → List (List Bool × List (List Char))
  | .node cs ts => (path, cs) :: nodesL path ts
def nodesL (path : List Bool) : List (Tree (List (List Char))) → List (List Bool × List (List Char))
  | [] => []
  | t :: ts => nodes (path ++ [ts.isEmpty]) t ++ nodesL path ts
end

/-- The text leaves something on the line of the cursor. -/
def leaves (cs : List (List Char)) : Bool :=
  match cs.flatten.getLast? with
  | none => false
  | some c => c != '\n'

/-- Nodes printed one after the other; `opn`: there is something on the line of the cursor. -/
def sheet (opn : Bool) : List (List Bool × List (List Char)) → List Char
  | [] => []
  | (path, cs) :: rest =>
    (if opn then ['\n'] else []) ++ body path true true (cs.flatMap cuts) ++ sheet (leaves cs) rest

/-- What is printed for a tree of pieces of texts. -/
def print (t : Tree (List (List Char))) : List Char := sheet false (nodes [] t)

end Printed
end Treena
