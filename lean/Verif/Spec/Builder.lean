import Verif.Spec.Clone
import Verif.Model.Builders
/-!
# Specification: the trees described by uses of the builders
-/
set_option autoImplicit false

namespace Treena
variable {T : Type}

/-- The forest `g` of shape `s'` is the forest `f` of shape `s` plus one tree of fresh nodes, whose data form the
tree `t`.  The IDs of the new nodes are `s.size, s.size + 1, …` in preorder. -/
structure Planted (f : Forest T) (s : Shape) (t : Tree T) (g : Forest T) (s' : Shape) : Prop where
  grown : Grown f s g s'
  size : s'.size = s.size + t.count
  tree : Tree.IsTree s'.kids (t.number s.size)
  root : s'.parent s.size = none
  alive : ∀ x, s.size ≤ x → x < s'.size → s'.alive x = true
  data : g.data = f.data ++ t.preorder.map some

namespace NestCall

mutual
/-- The trees described by a call, panics of the closures aside. -/
def trees : NestCall T → List (Tree T)
  | .addChild d => [.node d []]
  | .createTree d cs => [.node d (treesL cs)]
  | .boom => []
def treesL : List (NestCall T) → List (Tree T)
  | [] => []
  | c :: cs => trees c ++ treesL cs
end

mutual
/-- No closure panics. -/
def calm : NestCall T → Bool
  | .addChild _ => true
  | .createTree _ cs => calmL cs
  | .boom => false
def calmL : List (NestCall T) → Bool
  | [] => true
  | c :: cs => calm c && calmL cs
end

/-- The panic of the user code. -/
def userPanic : Fail := .panic "user code panicked"

mutual
/-- What is built by a call if at most `b` nodes can be created: the trees and either the number of nodes that can
still be created or the panic that ended it. -/
def plan (b : Nat) : NestCall T → List (Tree T) × Except Fail Nat
  | .addChild d => if b = 0 then ([], .error overflow) else ([.node d []], .ok (b - 1))
  | .createTree d cs =>
    if b = 0 then ([], .error overflow)
    else ([.node d (planL (b - 1) cs).1], (planL (b - 1) cs).2)
  | .boom => ([], .error userPanic)
def planL (b : Nat) : List (NestCall T) → List (Tree T) × Except Fail Nat
  | [] => ([], .ok b)
  | c :: cs =>
    match plan b c with
    | (ts, .error e) => (ts, .error e)
    | (ts, .ok b') => (ts ++ (planL b' cs).1, (planL b' cs).2)
end

end NestCall

/-! ### `ChainTreeBuilder`: a cursor on the rightmost path of a growing tree -/

/-- An open node: its ID, its datum and its finished subtrees. -/
structure Frame (T : Type) where
  id : Nat
  d : T
  done : List (Tree T)

/-- The current node and its ancestors, innermost first; the subtrees of an ancestor do not include the one
that contains the current node. -/
structure Cursor (T : Type) where
  top : Frame T
  rest : List (Frame T)

namespace Cursor

/-- The ID the next new node will get. -/
def fresh (c : Cursor T) : Nat := c.top.id + 1 + Tree.countL c.top.done

/-- Move to the parent: the current node becomes a finished subtree. -/
def up (c : Cursor T) : Option (Cursor T) :=
  match c.rest with
  | [] => none
  | p :: r => some ⟨⟨p.id, p.d, p.done ++ [.node c.top.d c.top.done]⟩, r⟩

/-- Open a new node below the current one. -/
def push (c : Cursor T) (n : Nat) (d : T) : Cursor T := ⟨⟨n, d, []⟩, c.top :: c.rest⟩

/-- One call; `none` if it panics. -/
def step (cap : Nat) (c : Cursor T) : ChainCall T → Option (Cursor T)
  | .child d => if c.fresh < cap then some (c.push c.fresh d) else none
  | .sibling d => if c.fresh < cap then c.up.map fun p => p.push c.fresh d else none
  | .parent => c.up
  | .tryParent => some (c.up.getD c)

/-- Calls one after the other. -/
def steps (cap : Nat) (c : Cursor T) : List (ChainCall T) → Option (Cursor T)
  | [] => some c
  | a :: l => (c.step cap a).bind fun c' => steps cap c' l

/-- The whole tree, seen from frame `g` up. -/
def closeFrom (g : Frame T) : List (Frame T) → Tree T
  | [] => .node g.d g.done
  | p :: r => closeFrom ⟨p.id, p.d, p.done ++ [.node g.d g.done]⟩ r

/-- The whole tree. -/
def close (c : Cursor T) : Tree T := closeFrom c.top c.rest

/-- IDs of the current node and its ancestors. -/
def ids (c : Cursor T) : List Nat := c.top.id :: c.rest.map Frame.id

end Cursor

end Treena
