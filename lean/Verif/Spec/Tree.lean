import Verif.Spec.Forest
import Verif.Model.Traverse
/-!
# Specification: rose trees and their traversal orders

Only the item type `Ev` (`Open`/`Close`) is taken from the model.
-/

set_option autoImplicit false

namespace Treena

/-- Ordered trees with labels of type `α`. -/
inductive Tree (α : Type) where
  | node (a : α) (ts : List (Tree α))

namespace Tree
variable {α β : Type}

def root : Tree α → α
  | .node a _ => a

def subs : Tree α → List (Tree α)
  | .node _ ts => ts

mutual
/-- `Open`/`Close` events in document order. -/
def events : Tree α → List (Ev α)
  | .node a ts => .opn a :: (eventsL ts ++ [.cls a])
def eventsL : List (Tree α) → List (Ev α)
  | [] => []
  | t :: ts => events t ++ eventsL ts
end

/-- The nodes closed by a list of events. -/
def closes {α : Type} (L : List (Ev α)) : List α :=
  L.filterMap fun e => match e with | .opn _ => none | .cls a => some a

/-- The nodes opened by a list of events. -/
def opens {α : Type} (L : List (Ev α)) : List α :=
  L.filterMap fun e => match e with | .opn a => some a | .cls _ => none

mutual
/-- Events with the depth of their node, the root of the tree having depth `d`. -/
def devents (d : Nat) : Tree α → List (Ev α × Nat)
  | .node a ts => (.opn a, d) :: (deventsL (d + 1) ts ++ [(.cls a, d)])
def deventsL (d : Nat) : List (Tree α) → List (Ev α × Nat)
  | [] => []
  | t :: ts => devents d t ++ deventsL d ts
end

/-- The events a depth-limited traversal is to produce. -/
def shallow {α : Type} (mx : Option Nat) (t : Tree α) : List (Ev α × Nat) :=
  match mx with
  | none => t.devents 0
  | some m => (t.devents 0).filter (fun e => decide (e.2 ≤ m))

mutual
def preorder : Tree α → List α
  | .node a ts => a :: preorderL ts
def preorderL : List (Tree α) → List α
  | [] => []
  | t :: ts => preorder t ++ preorderL ts
end

mutual
def postorder : Tree α → List α
  | .node a ts => postorderL ts ++ [a]
def postorderL : List (Tree α) → List α
  | [] => []
  | t :: ts => postorder t ++ postorderL ts
end

mutual
/-- The nodes at depth `d`, in document order. -/
def level : Nat → Tree α → List α
  | 0, .node a _ => [a]
  | d + 1, .node _ ts => levelL d ts
def levelL : Nat → List (Tree α) → List α
  | _, [] => []
  | d, t :: ts => level d t ++ levelL d ts
end

mutual
/-- Number of levels. -/
def height : Tree α → Nat
  | .node _ ts => heightL ts + 1
def heightL : List (Tree α) → Nat
  | [] => 0
  | t :: ts => max (height t) (heightL ts)
end

/-- Level order with depths. -/
def bfs (t : Tree α) : List (α × Nat) :=
  (List.range t.height).flatMap fun d => (t.level d).map fun a => (a, d)

mutual
/-- Relabel the nodes. -/
def map (g : α → β) : Tree α → Tree β
  | .node a ts => .node (g a) (mapL g ts)
def mapL (g : α → β) : List (Tree α) → List (Tree β)
  | [] => []
  | t :: ts => map g t :: mapL g ts
end

mutual
/-- Number of nodes. -/
def count : Tree α → Nat
  | .node _ ts => countL ts + 1
def countL : List (Tree α) → Nat
  | [] => 0
  | t :: ts => count t + countL ts
end

mutual
/-- The tree with the same shape whose nodes are numbered `b, b+1, …` in preorder. -/
def number (b : Nat) : Tree α → Tree Nat
  | .node _ ts => .node b (numberL (b + 1) ts)
def numberL (b : Nat) : List (Tree α) → List (Tree Nat)
  | [] => []
  | t :: ts => number b t :: numberL (b + count t) ts
end

mutual
/-- The tree `t` is what one sees from its root by following the child lists `kids`. -/
def IsTree (kids : Nat → List Nat) : Tree Nat → Prop
  | .node x ts => kids x = ts.map root ∧ IsForest kids ts
def IsForest (kids : Nat → List Nat) : List (Tree Nat) → Prop
  | [] => True
  | t :: ts => IsTree kids t ∧ IsForest kids ts
end

end Tree

end Treena
