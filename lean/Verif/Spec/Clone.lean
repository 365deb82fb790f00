import Verif.Spec.Models
import Verif.Spec.Tree
import Verif.Spec.Hook
/-!
# Specification: adding nodes to a forest without touching the rest, and copying trees
-/
set_option autoImplicit false

namespace Treena

variable {T : Type} {S : Type}

/-- The forest `g` of shape `s'` extends the forest `f` of shape `s`: whatever was there is unchanged. -/
structure Grown (f : Forest T) (s : Shape) (g : Forest T) (s' : Shape) : Prop where
  models : Models g s'
  size : s.size ≤ s'.size
  alive : ∀ x, x < s.size → s'.alive x = s.alive x
  parent : ∀ x, x < s.size → s'.parent x = s.parent x
  kids : ∀ x, x < s.size → s'.kids x = s.kids x
  data : ∀ x, x < s.size → g.getData x = f.getData x

/-- `T::clone` returns for the datum of the node `y`. -/
def clones (cl : T → Option T) (dat : Nat → Option T) (y : Nat) : Bool := ((dat y).bind cl).isSome

/-- The data of the copies. -/
def copies (cl : T → Option T) (dat : Nat → Option T) (ys : List Nat) : List (Option T) :=
  ys.map fun y => (dat y).bind cl

/-- The panic of a creation call when the IDs are exhausted. -/
def overflow : Fail :=
  .panic "[precondition] node ID overflowed presumably due to too many node creations"

/-- The panic of `T::clone`. -/
def clonePanic : Fail := .panic "T::clone panicked"

/-- How a run of the clone loop over `pairs` (source, copy) may fail: `m` nodes were created.  `fine` tells for
which source nodes `T::clone` returns.  The callback panics in call number `k` (from 0), or the IDs are exhausted,
or `T::clone` panics for node number `k`; in each case everything was fine up to then. -/
inductive Failed (cap size : Nat) (fine : Nat → Bool) (hook : S → Nat × Nat → Except S S) (pairs : List (Nat × Nat)) (σ σ' : S) :
    Fail → Nat → Prop where
  | hook (k : Nat) : feed hook σ pairs = (σ', some k) → k < pairs.length → size + k + 1 ≤ cap →
      (∀ q ∈ pairs.take (k + 1), fine q.1 = true) →
      Failed cap size fine hook pairs σ σ' (.panic "add_mapping panicked") (k + 1)
  | full : cap - size < pairs.length → feed hook σ (pairs.take (cap - size)) = (σ', none) →
      (∀ q ∈ pairs.take (cap - size + 1), fine q.1 = true) →
      Failed cap size fine hook pairs σ σ' overflow (cap - size)
  | clone (k : Nat) : feed hook σ (pairs.take k) = (σ', none) → (k = 0 ∨ size + k ≤ cap) →
      (∀ q ∈ pairs.take k, fine q.1 = true) → (∃ q, pairs[k]? = some q ∧ fine q.1 = false) →
      Failed cap size fine hook pairs σ σ' clonePanic k

/-- The callback, on pairs. -/
def pairHook (hook : Forest.MapHook S) : S → Nat × Nat → Except S S := fun σ q => hook σ q.1 q.2

/-- The copy of `t` made in the forest `f` of shape `s`. -/
structure Copied (f : Forest T) (s : Shape) (cl : T → Option T) (dat : Nat → Option T) (t : Tree Nat)
    (g : Forest T) (s' : Shape) : Prop where
  grown : Grown f s g s'
  size : s'.size = s.size + t.count
  tree : Tree.IsTree s'.kids (t.number s.size)
  root : s'.parent s.size = none
  alive : ∀ x, s.size ≤ x → x < s'.size → s'.alive x = true
  data : g.data = f.data ++ copies cl dat t.preorder

namespace Tree
variable {α : Type}

mutual
/-- The first `m` nodes of the tree, in preorder: nothing for `m = 0`, otherwise one tree. -/
def trunc (m : Nat) : Tree α → List (Tree α)
  | .node a ts => if m = 0 then [] else [.node a (truncL (m - 1) ts)]
/-- The first `m` nodes of the forest. -/
def truncL (m : Nat) : List (Tree α) → List (Tree α)
  | [] => []
  | t :: ts => trunc m t ++ truncL (m - count t) ts
end

end Tree

/-- Every outcome of cloning the tree `t`. -/
def CloneOutcome (f : Forest T) (s : Shape) (cap : Nat) (cl : T → Option T) (hook : Forest.MapHook S)
    (dat : Nat → Option T) (t : Tree Nat) (σ : S) (run : Res (Forest T × S) Nat) : Prop :=
  ∃ g' σ' s',
    (feed (pairHook hook) σ (t.preorder.zip (List.range' s.size t.count)) = (σ', none) ∧
      s.size + t.count ≤ cap ∧ (∀ y ∈ t.preorder, clones cl dat y = true) ∧ Copied f s cl dat t g' s' ∧ run = .ok s.size (g', σ')) ∨
    (∃ e m, run = .fail e (g', σ') ∧ Grown f s g' s' ∧ s'.size = s.size + m ∧
      g'.data = f.data ++ copies cl dat (t.preorder.take m) ∧
      (∀ t' ∈ t.trunc m, Copied f s cl dat t' g' s') ∧
      Failed cap s.size (clones cl dat) (pairHook hook) (t.preorder.zip (List.range' s.size t.count)) σ σ' e m)

/-- `pairs` relates the nodes of the source tree at `src` (in a forest with parents and child lists `par`, `kids`
and data `dat`) one to one to the nodes of the copy at `dst` in the forest `g` of shape `s'`, whose IDs are not
below `b`: roots, children (in order), parents and data correspond. -/
structure Corresponds (par : Nat → Option Nat) (kids : Nat → List Nat) (dat : Nat → Option T) (cl : T → Option T)
    (src dst b : Nat) (pairs : List (Nat × Nat)) (g : Forest T) (s' : Shape) : Prop where
  sources : ∀ y, y ∈ pairs.map (·.1) ↔ AncOrSelf par src y
  nodupSrc : (pairs.map (·.1)).Nodup
  nodupDst : (pairs.map (·.2)).Nodup
  copies : ∀ y, y ∈ pairs.map (·.2) ↔ AncOrSelf s'.parent dst y
  fresh : ∀ q ∈ pairs, b ≤ q.2 ∧ q.2 < s'.size ∧ s'.alive q.2 = true
  root : pairs.head? = some (src, dst) ∧ s'.parent dst = none
  children : ∀ q ∈ pairs, (kids q.1).length = (s'.kids q.2).length ∧ ∀ r ∈ (kids q.1).zip (s'.kids q.2), r ∈ pairs
  parents : ∀ q ∈ pairs, q = (src, dst) ∨ ∃ r ∈ pairs, par q.1 = some r.1 ∧ s'.parent q.2 = some r.2
  data : ∀ q ∈ pairs, g.getData q.2 = (dat q.1).bind cl

end Treena
