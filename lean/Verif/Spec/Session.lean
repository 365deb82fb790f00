import Verif.Spec.Build
import Verif.Spec.World
/-!
# Specification: whole programs

Programs that keep several forests, and iterators over each of them, linked against one of the two builds: the union of
`Spec/World.lean` (several forests), `Spec/Pool.lean` (iterators) and `Spec/Build.lean` (builds).
-/
set_option autoImplicit false

namespace Treena
variable {T : Type}

/-- A step of a program.  The forests are numbered in the order of their creation, the iterators over each forest in the order
of theirs. -/
inductive Deed (T : Type) where
  /-- `Forest::new()` -/
  | new
  /-- a call on forest number `i` or on one of the iterators over it -/
  | on (i : Nat) (c : PoolReq T)
  /-- `clone_foreign_tree_with_id_mapping` on forest number `dst`, with the node `x` of forest number `src` and a callback that
  records the pairs and panics when called after `limit` calls.  It borrows `dst` mutably, which ends the iterators over it,
  and `src` immutably. -/
  | foreign (dst src x : Nat) (cl : T → Option T) (limit : Option Nat)
  /-- `Forest::clone` of forest number `i`; iterators over it go on -/
  | dup (i : Nat) (cl : T → Option T)

/-- On the modelled code. -/
def Build.deed (b : Build) (cap um : Nat) (w : List (Forest T × List Iter)) : Deed T → List (Forest T × List Iter) × PoolAns T
  | .new => (w ++ [(Forest.new, [])], .call (.id w.length))
  | .on i c =>
    match w[i]? with
    | some p => (w.set i (b.poolExec cap um p c).1, (b.poolExec cap um p c).2)
    | none => (w, .noMethod)
  | .foreign dst src x cl limit =>
    match w[dst]?, w[src]? with
    | some (f, _), some (g, _) =>
      if dst ≠ src ∧ g.isAlive x then
        let q := Ans.ofResS .copied
          (Forest.cloneForeignTreeWithIdMapping cap cl (fun l a b => Req.record limit l (a, b)) g x (f, []))
        (w.set dst (q.1, []), .call q.2)
      else (w, .noMethod)
    | _, _ => (w, .noMethod)
  | .dup i cl =>
    match w[i]? with
    | some (f, _) =>
      match f.tryClone cl with
      | .ok g => (w ++ [(g, [])], .call (.id w.length))
      | .error e => (w, .ofFail e)
    | none => (w, .noMethod)

/-- On naive forests and iterators; `none` if nothing is promised. -/
def Plain.deed (cap um : Nat) (w : List (Plain T × List Deck)) : Deed T → Option (List (Plain T × List Deck) × PoolAns T)
  | .new => some (w ++ [(empty, [])], .call (.id w.length))
  | .on i c =>
    match w[i]? with
    | some p => (poolExec cap um p c).map fun y => (w.set i y.1, y.2)
    | none => some (w, .noMethod)
  | .foreign dst src x cl limit =>
    match w[dst]?, w[src]? with
    | some (r, _), some (r', _) =>
      match Wood.findL x r'.trees with
      | some t =>
        if dst ≠ src then
          let y := r.copyTree cap t cl limit
          some (w.set dst (y.1, []), .call y.2)
        else some (w, .noMethod)
      | none => some (w, .noMethod)
    | _, _ => some (w, .noMethod)
  | .dup i cl =>
    match w[i]? with
    | some (r, _) =>
      if (Tree.preorderL r.trees).all fun p => (cl p.2).isSome then some (w ++ [(r.dup cl, [])], .call (.id w.length))
      else some (w, .panicked)
    | none => some (w, .noMethod)

/-- The answers a program gets in `n` steps; it decides by the answers obtained so far. -/
def Build.session (b : Build) (cap um : Nat) (program : List (PoolAns T) → Deed T) :
    Nat → List (Forest T × List Iter) → List (PoolAns T) → List (PoolAns T)
  | 0, _, seen => seen
  | n + 1, w, seen =>
    let q := b.deed cap um w (program seen)
    session b cap um program n q.1 (seen ++ [q.2])

/-- The same on the naive implementation; the program is stopped at the first step for which nothing is promised. -/
def Plain.session (cap um : Nat) (program : List (PoolAns T) → Deed T) :
    Nat → List (Plain T × List Deck) → List (PoolAns T) → List (PoolAns T)
  | 0, _, seen => seen
  | n + 1, w, seen =>
    match Plain.deed cap um w (program seen) with
    | none => seen
    | some q => Plain.session cap um program n q.1 (seen ++ [q.2])

end Treena
