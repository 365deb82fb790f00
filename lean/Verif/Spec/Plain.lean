import Verif.Spec.Tree
import Verif.Spec.Iter
import Verif.Spec.Builder
import Verif.Spec.Careful
import Verif.Spec.Printed
import Verif.Model.Builders
import Verif.Model.DebugPrint
/-!
# Specification: a naive implementation of the whole interface

`Plain` is a forest written the way one would on paper: a list of ordered trees whose nodes carry an ID and a
datum, and the number of IDs handed out so far.  There are no links.  `Plain.exec` is what each call of the public
interface does to it and what the caller gets to see; `none` means that nothing is promised (the in-place
insertions and the removals with a panicking hook on which the code misbehaves).

`Req.exec` is the same call on the modelled code.  `transcript` is a client that decides on each call by the
answers obtained so far.
-/
set_option autoImplicit false

namespace Treena
variable {T : Type}

namespace Wood

/-- The ID at the root. -/
def idOf (t : Tree (Nat × T)) : Nat := t.root.1

/-- The IDs in the forest. -/
def ids (w : List (Tree (Nat × T))) : List Nat := (Tree.preorderL w).map (·.1)

mutual
/-- The subtree at `x`. -/
def find (x : Nat) : Tree (Nat × T) → Option (Tree (Nat × T))
  | .node a ts => if a.1 = x then some (.node a ts) else findL x ts
def findL (x : Nat) : List (Tree (Nat × T)) → Option (Tree (Nat × T))
  | [] => none
  | t :: ts => match find x t with
    | some u => some u
    | none => findL x ts
end

mutual
/-- The node with a subtree at `x` directly below it. -/
def parent (x : Nat) : Tree (Nat × T) → Option Nat
  | .node a ts => if x ∈ ts.map idOf then some a.1 else parentL x ts
def parentL (x : Nat) : List (Tree (Nat × T)) → Option Nat
  | [] => none
  | t :: ts => match parent x t with
    | some p => some p
    | none => parentL x ts
end

mutual
/-- Edit the list of subtrees at every node, bottom-up. -/
def edit (g : Nat → List (Tree (Nat × T)) → List (Tree (Nat × T))) : Tree (Nat × T) → Tree (Nat × T)
  | .node a ts => .node a (g a.1 (editL g ts))
def editL (g : Nat → List (Tree (Nat × T)) → List (Tree (Nat × T))) :
    List (Tree (Nat × T)) → List (Tree (Nat × T))
  | [] => []
  | t :: ts => edit g t :: editL g ts
end

/-- Take the tree at `x` away. -/
def cut (x : Nat) (w : List (Tree (Nat × T))) : List (Tree (Nat × T)) :=
  (editL (fun _ l => l.filter fun t => decide (idOf t ≠ x)) w).filter fun t => decide (idOf t ≠ x)

/-- Add the tree `u` at a place. -/
def graft (pl : Place) (u : Tree (Nat × T)) (w : List (Tree (Nat × T))) : List (Tree (Nat × T)) :=
  match pl with
  | .firstChildOf a => editL (fun b l => if b = a then u :: l else l) w
  | .lastChildOf a => editL (fun b l => if b = a then l ++ [u] else l) w
  | .before a => editL (fun _ l => l.flatMap fun t => if idOf t = a then [u, t] else [t]) w
  | .after a => editL (fun _ l => l.flatMap fun t => if idOf t = a then [t, u] else [t]) w

/-- Put the subtrees of `x` (which is not a root) in the place of `x`. -/
def dissolve (x : Nat) (w : List (Tree (Nat × T))) : List (Tree (Nat × T)) :=
  editL (fun _ l => l.flatMap fun t => if idOf t = x then t.subs else [t]) w

/-- Take the trees at the given nodes away. -/
def strip (D : List Nat) (w : List (Tree (Nat × T))) : List (Tree (Nat × T)) :=
  (editL (fun _ l => l.filter fun t => decide (idOf t ∉ D)) w).filter fun t => decide (idOf t ∉ D)

/-- Replace the datum of `x`. -/
def write (x : Nat) (v : T) (w : List (Tree (Nat × T))) : List (Tree (Nat × T)) :=
  w.map fun t => t.map fun p => if p.1 = x then (x, v) else p

mutual
/-- Give the nodes the IDs `b, b + 1, …` in preorder. -/
def stamp (b : Nat) : Tree T → Tree (Nat × T)
  | .node d ts => .node (b, d) (stampL (b + 1) ts)
def stampL (b : Nat) : List (Tree T) → List (Tree (Nat × T))
  | [] => []
  | t :: ts => stamp b t :: stampL (b + t.count) ts
end

end Wood

/-- A forest, naively. -/
structure Plain (T : Type) where
  /-- number of IDs handed out -/
  issued : Nat
  /-- the trees, in any order -/
  trees : List (Tree (Nat × T))

/-- The links that can be asked for. -/
inductive Link where
  | parent
  | next
  | prev
  | firstChild
  | lastChild
deriving DecidableEq

/-- The double-ended iterators over nodes. -/
inductive Row where
  | children
  | following
  | followingOrSelf
  | preceding
  | precedingOrSelf
deriving DecidableEq

/-- A call of the public interface. -/
inductive Req (T : Type) where
  /-- `forest.node(x).is_some()` -/
  | alive (x : Nat)
  /-- `forest.data(x)` -/
  | data (x : Nat)
  /-- `forest.node(x)` and one of `parent_id`, `next_sibling_id`, … -/
  | link (x : Nat) (k : Link)
  /-- `first_last_child_id` -/
  | ends (x : Nat)
  /-- `forest.node(x)` and one of `parent`, `next_sibling`, …, of which the ID and the datum are looked at -/
  | near (x : Nat) (k : Link)
  /-- the same with `first_last_child` -/
  | nearEnds (x : Nat)
  /-- `depth_first_traverse`, then any calls of `next` / `next_back` -/
  | dft (x : Nat) (ds : List Dir)
  /-- `shallow_depth_first_traverse` -/
  | shallow (x : Nat) (max : Option Nat) (ds : List Dir)
  /-- `breadth_first_traverse`, then `n` calls of `next` -/
  | bft (x n : Nat)
  /-- `allocating_breadth_first_traverse` -/
  | abft (x n : Nat)
  /-- `ancestors_or_self` / `ancestors` -/
  | ancestors (x : Nat) (self : Bool) (n : Nat)
  /-- `children`, `following_siblings`, … -/
  | row (x : Nat) (k : Row) (ds : List Dir)
  /-- `create_root` -/
  | createRoot (d : T)
  /-- `create_insert` -/
  | createInsert (d : T) (dest : InsertAs)
  /-- a write through `data_mut` -/
  | setData (x : Nat) (v : T)
  /-- `insert` -/
  | insert (x : Nat) (dest : InsertAs)
  /-- `detach` -/
  | detach (x : Nat)
  /-- `detach_single` -/
  | detachSingle (x : Nat)
  /-- `remove` -/
  | drop (x : Nat)
  /-- `remove_hooked` with a hook that records the data it is given and panics when called after `limit` calls -/
  | remove (x : Nat) (limit : Option Nat)
  /-- `remove_hooked_panic_safe` with such a hook -/
  | removeSafe (x : Nat) (limit : Option Nat)
  /-- `clone_local_tree_with_id_mapping` with a callback that records the pairs and panics when called after `limit`
  calls, `T::clone` being `cl` (`none` if it panics) -/
  | copy (x : Nat) (cl : T → Option T) (limit : Option Nat)
  /-- `clone_local_tree` -/
  | dup (x : Nat) (cl : T → Option T)
  /-- `node_mut(self)`, then `create` -/
  | nodeCreate (self : Nat) (d : T) (dest : AdoptAs)
  /-- `node_mut(self)`, then `try_adopt` -/
  | tryAdopt (self x : Nat) (dest : AdoptAs)
  /-- `node_mut(self)`, then `adopt` -/
  | adopt (self x : Nat) (dest : AdoptAs)
  /-- a use of a `NestTreeBuilder` -/
  | nest (d : T) (calls : List (NestCall T))
  /-- a use of a `ChainTreeBuilder` -/
  | chain (d : T) (calls : List (ChainCall T))
  /-- `debug_print` to a string, each datum being written in the given pieces -/
  | print (x : Nat) (pieces : T → List Text)

/-- What the caller gets to see. -/
inductive Ans (T : Type) where
  /-- the call panicked -/
  | panicked
  /-- the call never returned -/
  | hung
  /-- `forest.node(x)` is `None` -/
  | absent
  /-- `()` or `Ok(())` -/
  | done
  /-- `Err(e)` -/
  | err (e : StructureError)
  /-- a `bool` -/
  | flag (b : Bool)
  /-- an ID -/
  | id (n : Nat)
  /-- an `Option<&T>` -/
  | datum (o : Option T)
  /-- an `Option` of an ID -/
  | link (o : Option Nat)
  /-- an `Option` of two IDs -/
  | ends (o : Option (Nat × Nat))
  /-- an `Option` of a node: its ID and datum -/
  | near (o : Option (Nat × T))
  /-- an `Option` of two nodes -/
  | nearEnds (o : Option ((Nat × T) × Nat × T))
  /-- the data recorded by the hook -/
  | dropped (l : List T)
  /-- the new root and the pairs recorded by the callback -/
  | copied (n : Nat) (l : List (Nat × Nat))
  /-- items of `depth_first_traverse` -/
  | events (l : List (Option (Ev Nat)))
  /-- items of `shallow_depth_first_traverse` -/
  | devents (l : List (Option (Ev Nat × Nat)))
  /-- items of the breadth-first iterators -/
  | levels (l : List (Option (Nat × Nat)))
  /-- items of the other iterators -/
  | nodes (l : List (Option Nat))
  /-- the text printed, and whether the result is `Ok` -/
  | text (ok : Bool) (l : Text)
deriving DecidableEq

namespace Plain

/-- `Forest::new()`. -/
def empty : Plain T := ⟨0, []⟩

/-- Live IDs. -/
def alive (r : Plain T) (x : Nat) : Bool := decide (x ∈ Wood.ids r.trees)

/-- The IDs directly below `x`. -/
def kids (r : Plain T) (x : Nat) : List Nat :=
  match Wood.findL x r.trees with
  | some t => t.subs.map Wood.idOf
  | none => []

/-- The parent of `x`. -/
def parent (r : Plain T) (x : Nat) : Option Nat := Wood.parentL x r.trees

/-- The siblings of `x` and itself, in order. -/
def sibs (r : Plain T) (x : Nat) : List Nat :=
  match r.parent x with
  | some p => r.kids p
  | none => [x]

/-- A link of the live node `x`. -/
def link (r : Plain T) (x : Nat) : Link → Option Nat
  | .parent => r.parent x
  | .next => (after (r.sibs x) x).head?
  | .prev => (before (r.sibs x) x).getLast?
  | .firstChild => (r.kids x).head?
  | .lastChild => (r.kids x).getLast?

/-- The node `x`, if it is live, with its datum. -/
def show_ (r : Plain T) (x : Nat) : Option (Nat × T) := (Wood.findL x r.trees).map fun t => t.root

/-- `x` and its ancestors, innermost first. -/
def path (r : Plain T) : Nat → Nat → List Nat
  | 0, _ => []
  | n + 1, x => x :: match r.parent x with
    | some p => path r n p
    | none => []

/-- What the iterator `k` from `x` is over. -/
def row (r : Plain T) (x : Nat) : Row → List Nat
  | .children => r.kids x
  | .following => after (r.sibs x) x
  | .followingOrSelf => x :: after (r.sibs x) x
  | .preceding => before (r.sibs x) x
  | .precedingOrSelf => before (r.sibs x) x ++ [x]

/-- The parent-to-be of a node put at a place. -/
def placeParent (r : Plain T) : Place → Option Nat
  | .firstChildOf a => some a
  | .lastChildOf a => some a
  | .before a => r.parent a
  | .after a => r.parent a

/-- `x` already is at the place. -/
def there (r : Plain T) (x : Nat) : Place → Bool
  | .firstChildOf a => r.link a .firstChild == some x
  | .lastChildOf a => r.link a .lastChild == some x
  | .before a => r.link a .prev == some x
  | .after a => r.link a .next == some x

/-- If `x` is live, with the tree at `x`; else a panic. -/
def at_ (r : Plain T) (x : Nat) (k : Tree (Nat × T) → Plain T × Ans T) : Plain T × Ans T :=
  match Wood.findL x r.trees with
  | some t => k t
  | none => (r, .panicked)

/-- `create_root(d)`. -/
def createRoot (cap : Nat) (r : Plain T) (d : T) : Plain T × Ans T :=
  if cap ≤ r.issued then (r, .panicked)
  else (⟨r.issued + 1, r.trees ++ [.node (r.issued, d) []]⟩, .id r.issued)

/-- `create_insert(d, dest)`.  Beware: when the place does not exist, the new node stays around as a root. -/
def createInsert (cap : Nat) (r : Plain T) (d : T) (pl : Place) : Plain T × Ans T :=
  if r.issued ≤ pl.anchor ∨ cap ≤ r.issued then (r, .panicked)
  else if r.alive pl.anchor = false ∨ r.placeParent pl = none then
    (⟨r.issued + 1, r.trees ++ [.node (r.issued, d) []]⟩, .panicked)
  else (⟨r.issued + 1, Wood.graft pl (.node (r.issued, d) []) r.trees⟩, .id r.issued)

/-- `insert(x, dest)`; nothing is promised if `x` already is there, except as the only child put first. -/
def insert (r : Plain T) (x : Nat) (pl : Place) : Option (Plain T × Ans T) :=
  if pl = .before x ∨ pl = .after x then some (r, .err .unorderableSiblings)
  else match Wood.findL x r.trees, Wood.findL pl.anchor r.trees, r.placeParent pl with
    | some u, some _, some p =>
      if p ∈ Wood.ids [u] then some (r, .err .ancestorDescendantLoop)
      else if r.there x pl then
        if pl = .firstChildOf p ∧ r.kids p = [x] then some (r, .done) else none
      else some (⟨r.issued, Wood.graft pl u (Wood.cut x r.trees)⟩, .done)
    | _, _, _ => some (r, .panicked)

/-- `detach_single(x)`. -/
def detachSingle (r : Plain T) (x : Nat) : Plain T × Ans T :=
  r.at_ x fun t =>
    match r.parent x with
    | some _ => (⟨r.issued, Wood.dissolve x r.trees ++ [.node t.root []]⟩, .done)
    | none =>
      if t.subs.length ≤ 1 then (⟨r.issued, Wood.cut x r.trees ++ .node t.root [] :: t.subs⟩, .done)
      else (r, .err .siblingsWithoutParent)

/-- `remove(x)`; the data are dropped in postorder. -/
def remove (r : Plain T) (x : Nat) : Plain T × Ans T :=
  match Wood.findL x r.trees with
  | some t => (⟨r.issued, Wood.cut x r.trees⟩, .dropped (t.postorder.map (·.2)))
  | none => (r, .dropped [])

/-- `remove_hooked(x)` with a hook that panics: if it is the last call of the hook, everything is removed; else nothing is
promised. -/
def removeForce (r : Plain T) (x : Nat) (limit : Option Nat) : Option (Plain T × Ans T) :=
  match Wood.findL x r.trees, limit with
  | some t, some k =>
    if k + 1 < t.count then none
    else if k + 1 = t.count then some (⟨r.issued, Wood.cut x r.trees⟩, .panicked)
    else some (r.remove x)
  | _, _ => some (r.remove x)

/-- `remove_hooked_panic_safe(x)`: if the hook panics, the nodes it was given are gone, the others stay as a tree. -/
def removeSafe (r : Plain T) (x : Nat) (limit : Option Nat) : Plain T × Ans T :=
  match Wood.findL x r.trees, limit with
  | some t, some k =>
    if k < t.count then
      (⟨r.issued, Wood.strip ((t.postorder.take (k + 1)).map (·.1)) (Wood.cut x r.trees ++ [t])⟩, .panicked)
    else r.remove x
  | _, _ => r.remove x

/-- The number of nodes that get made by a copy, and whether it is complete.  `room` is the number of IDs left,
`limit` the number of calls the callback takes, `good` tells for which data `T::clone` returns, `i` nodes have been
made. -/
def made (room : Nat) (limit : Option Nat) : Nat → List Bool → Nat × Bool
  | i, [] => (i, true)
  | i, good :: l =>
    if good = false ∨ room ≤ i then (i, false)
    else if limit = some i then (i + 1, false)
    else made room limit (i + 1) l

/-- Add a copy of the tree `t` (of this or another forest); if that is not possible completely, only its first
nodes in preorder get made. -/
def copyTree (cap : Nat) (r : Plain T) (t : Tree (Nat × T)) (cl : T → Option T) (limit : Option Nat) : Plain T × Ans T :=
  let m := made (cap - r.issued) limit 0 (t.preorder.map fun p => (cl p.2).isSome)
  (⟨r.issued + m.1, r.trees ++ ((t.map fun p => (cl p.2).getD p.2).trunc m.1).map (Wood.stamp r.issued)⟩,
    if m.2 then .copied r.issued ((t.preorder.map (·.1)).zip (List.range' r.issued t.count)) else .panicked)

/-- A copy of the tree at `x`. -/
def copy (cap : Nat) (r : Plain T) (x : Nat) (cl : T → Option T) (limit : Option Nat) : Plain T × Ans T :=
  r.at_ x fun t => r.copyTree cap t cl limit

/-- What is printed of the tree at `x` (the picture of `Render.render` if all texts are single non-empty lines). -/
def print (r : Plain T) (x : Nat) (pieces : T → List Text) : Plain T × Ans T :=
  r.at_ x fun t => (r, .text true (Printed.print (t.map fun p => pieces p.2)))

/-- A use of a `NestTreeBuilder`. -/
def nest (cap : Nat) (r : Plain T) (d : T) (calls : List (NestCall T)) : Plain T × Ans T :=
  if cap ≤ r.issued then (r, .panicked)
  else
    let p := NestCall.planL (cap - r.issued - 1) calls
    let t := Tree.node d p.1
    (⟨r.issued + t.count, r.trees ++ [Wood.stamp r.issued t]⟩,
      match p.2 with
      | .ok _ => .id r.issued
      | .error _ => .panicked)

/-- The calls on a `ChainTreeBuilder` whose current node is `cur`; false if one of them panicked. -/
def chainL (cap : Nat) (r : Plain T) (cur : Nat) : List (ChainCall T) → Plain T × Bool
  | [] => (r, true)
  | .child d :: cs =>
    match r.createInsert cap d (.lastChildOf cur) with
    | (r', .id n) => chainL cap r' n cs
    | (r', _) => (r', false)
  | .sibling d :: cs =>
    match r.createInsert cap d (.after cur) with
    | (r', .id n) => chainL cap r' n cs
    | (r', _) => (r', false)
  | .parent :: cs =>
    match r.parent cur with
    | some p => chainL cap r p cs
    | none => (r, false)
  | .tryParent :: cs => chainL cap r ((r.parent cur).getD cur) cs

/-- A use of a `ChainTreeBuilder`. -/
def chain (cap : Nat) (r : Plain T) (d : T) (calls : List (ChainCall T)) : Plain T × Ans T :=
  match r.createRoot cap d with
  | (r', .id n) =>
    match r'.chainL cap n calls with
    | (r'', true) => (r'', .id n)
    | (r'', false) => (r'', .panicked)
  | (r', a) => (r', a)

/-- One call.  `cap` is the number of IDs there are, `um` is `usize::MAX`. -/
def exec (cap um : Nat) (r : Plain T) : Req T → Option (Plain T × Ans T)
  | .alive x => some (r, .flag (r.alive x))
  | .data x => some (r, .datum ((Wood.findL x r.trees).map fun t => t.root.2))
  | .link x k => some (r, if r.alive x then .link (r.link x k) else .absent)
  | .ends x => some (r, if r.alive x then
      .ends ((r.kids x).head?.bind fun a => (r.kids x).getLast?.map fun b => (a, b)) else .absent)
  | .near x k => some (r, if r.alive x then .near ((r.link x k).bind r.show_) else .absent)
  | .nearEnds x => some (r, if r.alive x then
      .nearEnds (((r.kids x).head?.bind r.show_).bind fun a => ((r.kids x).getLast?.bind r.show_).map fun b => (a, b)) else .absent)
  | .dft x ds => some (r.at_ x fun t => (r, .events (dequeRun (t.map (·.1)).events ds)))
  | .shallow x max ds => some (r.at_ x fun t =>
      (r, .devents (dequeRun ((t.map (·.1)).shallow (max.bind fun m => if m < um then some m else none)) ds)))
  | .bft x n => some (r.at_ x fun t => (r, .levels (pulls (t.map (·.1)).bfs n)))
  | .abft x n => some (r.at_ x fun t => (r, .levels (pulls (t.map (·.1)).bfs n)))
  | .ancestors x self n => some (r.at_ x fun _ =>
      (r, .nodes (pulls (if self then r.path (r.issued + 1) x else (r.path (r.issued + 1) x).tail) n)))
  | .row x k ds => some (r.at_ x fun _ => (r, .nodes (dequeRun (r.row x k) ds)))
  | .createRoot d => some (r.createRoot cap d)
  | .createInsert d dest => some (r.createInsert cap d dest.place)
  | .setData x v => some (⟨r.issued, Wood.write x v r.trees⟩, .flag (r.alive x))
  | .insert x dest => r.insert x dest.place
  | .detach x => some (r.at_ x fun t => (⟨r.issued, Wood.cut x r.trees ++ [t]⟩, .done))
  | .detachSingle x => some (r.detachSingle x)
  | .drop x => some ((r.remove x).1, .done)
  | .remove x limit => r.removeForce x limit
  | .removeSafe x limit => some (r.removeSafe x limit)
  | .copy x cl limit => some (r.copy cap x cl limit)
  | .dup x cl => some ((r.copy cap x cl none).1,
      match (r.copy cap x cl none).2 with | .copied n _ => .id n | a => a)
  | .nodeCreate self d dest =>
      if r.alive self then some (r.createInsert cap d (adoptPlace self dest).place) else some (r, .absent)
  | .tryAdopt self x dest =>
      if r.alive self then r.insert x (adoptPlace self dest).place else some (r, .absent)
  | .adopt self x dest =>
      if r.alive self then
        (r.insert x (adoptPlace self dest).place).map fun q =>
          (q.1, match q.2 with | .err _ => .panicked | a => a)
      else some (r, .absent)
  | .nest d calls => some (r.nest cap d calls)
  | .chain d calls => some (r.chain cap d calls)
  | .print x pieces => some (r.print x pieces)

end Plain

/-! ### The same calls on the modelled code -/

namespace Ans

/-- A call that did not return. -/
def ofFail : Fail → Ans T
  | .panic _ => .panicked
  | .diverge => .hung

/-- The answer of a read-only call. -/
def ofR {α : Type} (k : α → Ans T) : R α → Ans T
  | .ok a => k a
  | .error e => ofFail e

/-- The answer of a mutating call, and the forest after it (after the panic, if it panicked). -/
def ofRes {α : Type} (k : α → Ans T) : Res (Forest T) α → Forest T × Ans T
  | .ok a f => (f, k a)
  | .fail e f => (f, ofFail e)

/-- The same with a callback whose captured state is shown. -/
def ofResS {α S : Type} (k : α → S → Ans T) : Res (Forest T × S) α → Forest T × Ans T
  | .ok a (f, c) => (f, k a c)
  | .fail e (f, _) => (f, ofFail e)

/-- `Ok(())` or `Err(e)`. -/
def ofExcept : Except StructureError Unit → Ans T
  | .ok () => .done
  | .error e => .err e

end Ans

namespace Req

/-- The callback that records what it is given, and panics when called after `limit` calls. -/
def record {ι : Type} (limit : Option Nat) (l : List ι) (i : ι) : Except (List ι) (List ι) :=
  if limit = some l.length then .error l else .ok (l ++ [i])

/-- Make an iterator and use it. -/
def iterate {ι σ : Type} (next nextBack : σ → R (Option ι × σ)) (start : R σ) (ds : List Dir) : R (List (Option ι)) :=
  match start with
  | .ok st => drive next nextBack st ds
  | .error e => .error e

/-- The same for a single-ended iterator. -/
def iterate1 {ι σ : Type} (next : σ → R (Option ι × σ)) (start : R σ) (n : Nat) : R (List (Option ι)) :=
  match start with
  | .ok st => pull next n st
  | .error e => .error e

/-- The accessor for a link. -/
def linkOf (f : Forest T) (x : Nat) : Link → R (Option Nat)
  | .parent => f.parentId x
  | .next => f.nextSiblingId x
  | .prev => f.prevSiblingId x
  | .firstChild => f.firstChildId x
  | .lastChild => f.lastChildId x

/-- `Node::parent` etc.; then the datum of that node is looked at. -/
def nearOf (f : Forest T) (x : Nat) (k : Link) : R (Option (Nat × T)) :=
  match f.viaNode (linkOf f x k) with
  | .error e => .error e
  | .ok none => .ok none
  | .ok (some y) => (f.nodeData y).map fun d => some (y, d)

/-- `Node::first_last_child`; then the data are looked at. -/
def nearEndsOf (f : Forest T) (x : Nat) : R (Option ((Nat × T) × Nat × T)) :=
  match f.firstLastChild x with
  | .error e => .error e
  | .ok none => .ok none
  | .ok (some (y, z)) =>
    match f.nodeData y with
    | .error e => .error e
    | .ok d => (f.nodeData z).map fun d' => some ((y, d), z, d')

/-- The iterator. -/
def rowOf (f : Forest T) (x : Nat) : Row → R Siblings.St
  | .children => f.children x
  | .following => f.followingSiblings x
  | .followingOrSelf => f.followingSiblingsOrSelf x
  | .preceding => f.precedingSiblings x
  | .precedingOrSelf => f.precedingSiblingsOrSelf x

/-- One call on the modelled code. -/
def exec (cap um : Nat) (f : Forest T) : Req T → Forest T × Ans T
  | .alive x => (f, .flag (f.node x).isSome)
  | .data x => (f, .datum (f.getData x))
  | .link x k => (f, if f.isAlive x then .ofR .link (linkOf f x k) else .absent)
  | .ends x => (f, if f.isAlive x then .ofR .ends (f.firstLastChildId x) else .absent)
  | .near x k => (f, if f.isAlive x then .ofR .near (nearOf f x k) else .absent)
  | .nearEnds x => (f, if f.isAlive x then .ofR .nearEnds (nearEndsOf f x) else .absent)
  | .dft x ds => (f, .ofR .events (iterate f.dftNext f.dftNextBack (f.depthFirstTraverse x) ds))
  | .shallow x max ds =>
      (f, .ofR .devents (iterate f.shallowNext f.shallowNextBack (f.shallowDepthFirstTraverse um x max) ds))
  | .bft x n => (f, .ofR .levels (iterate1 (f.bftNext um) (f.breadthFirstTraverse um x) n))
  | .abft x n => (f, .ofR .levels (iterate1 f.abftNext (f.allocatingBreadthFirstTraverse x) n))
  | .ancestors x self n =>
      (f, .ofR .nodes (iterate1 f.ancestorsNext (if self then f.ancestorsOrSelf x else f.ancestors x) n))
  | .row x k ds => (f, .ofR .nodes (iterate f.siblingsNext f.siblingsNextBack (rowOf f x k) ds))
  | .createRoot d => Ans.ofRes .id (Forest.createRoot cap d f)
  | .createInsert d dest => Ans.ofRes .id (Forest.createInsert cap d dest f)
  | .setData x v => Ans.ofRes .flag (Forest.setData x v f)
  | .insert x dest => Ans.ofRes .ofExcept (Forest.insert x dest f)
  | .detach x => Ans.ofRes (fun _ => .done) (Forest.detach x f)
  | .detachSingle x => Ans.ofRes .ofExcept (Forest.detachSingle x f)
  | .drop x => Ans.ofRes (fun _ => .done) (Forest.remove x f)
  | .remove x limit => Ans.ofResS (fun _ c => .dropped c) (Forest.removeHooked (record limit) x (f, []))
  | .removeSafe x limit =>
      Ans.ofResS (fun _ c => .dropped c) (Forest.removeHookedPanicSafe (record limit) x (f, []))
  | .copy x cl limit =>
      Ans.ofResS .copied (Forest.cloneLocalTreeWithIdMapping cap cl (fun l a b => record limit l (a, b)) x (f, []))
  | .dup x cl => Ans.ofRes .id (Forest.cloneLocalTree cap cl x f)
  | .nodeCreate self d dest =>
      if f.isAlive self then Ans.ofRes .id (NodeMut.create cap self d dest f) else (f, .absent)
  | .tryAdopt self x dest =>
      if f.isAlive self then Ans.ofRes .ofExcept (NodeMut.tryAdopt self x dest f) else (f, .absent)
  | .adopt self x dest =>
      if f.isAlive self then Ans.ofRes (fun _ => .done) (NodeMut.adopt self x dest f) else (f, .absent)
  | .nest d calls => Ans.ofRes .id (nestBuild cap d calls f)
  | .chain d calls => Ans.ofRes .id (chainBuild cap d calls f)
  | .print x pieces =>
      (f, match f.debugPrint (fun out piece => .ok (out ++ piece)) (fun d => .ofPieces true (pieces d)) x [] with
        | .ok r out => .text r.toBool out
        | .fail e _ => .ofFail e)

end Req

/-! ### Clients -/

/-- The answers a client gets in `n` calls on the modelled code; it decides by the answers obtained so far. -/
def transcript (cap um : Nat) (client : List (Ans T) → Req T) : Nat → Forest T → List (Ans T) → List (Ans T)
  | 0, _, seen => seen
  | n + 1, f, seen =>
    let q := (client seen).exec cap um f
    transcript cap um client n q.1 (seen ++ [q.2])

/-- The same on the naive implementation; the client is stopped at the first call for which nothing is promised. -/
def Plain.transcript (cap um : Nat) (client : List (Ans T) → Req T) : Nat → Plain T → List (Ans T) → List (Ans T)
  | 0, _, seen => seen
  | n + 1, r, seen =>
    match r.exec cap um (client seen) with
    | none => seen
    | some q => Plain.transcript cap um client n q.1 (seen ++ [q.2])

end Treena
