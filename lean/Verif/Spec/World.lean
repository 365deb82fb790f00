import Verif.Spec.Plain
import Verif.Model.Proxy
/-!
# Specification: several forests at once

Programs that keep several forests, use each of them, copy trees from one to another and clone whole forests; on the
modelled code (`Act.exec`) and on naive forests (`Plain.act`).
-/
set_option autoImplicit false

namespace Treena
variable {T : Type}

/-- What a program with several forests can do.  The forests are numbered in the order of their creation. -/
inductive Act (T : Type) where
  /-- `Forest::new()` -/
  | new
  /-- a call on forest number `i` -/
  | on (i : Nat) (q : Req T)
  /-- `clone_foreign_tree_with_id_mapping` on forest number `dst`, with the node `x` of forest number `src` and a
  callback that records the pairs and panics when called after `limit` calls.  (The borrow checker demands that `dst`
  and `src` be different.) -/
  | foreign (dst src x : Nat) (cl : T → Option T) (limit : Option Nat)
  /-- `Forest::clone` of forest number `i` -/
  | dup (i : Nat) (cl : T → Option T)

/-- On the modelled code; `absent` if there is no such forest or node. -/
def Act.exec (cap um : Nat) (w : List (Forest T)) : Act T → List (Forest T) × Ans T
  | .new => (w ++ [Forest.new], .id w.length)
  | .on i q =>
    match w[i]? with
    | some f => (w.set i (q.exec cap um f).1, (q.exec cap um f).2)
    | none => (w, .absent)
  | .foreign dst src x cl limit =>
    match w[dst]?, w[src]? with
    | some f, some g =>
      if dst ≠ src ∧ g.isAlive x then
        let q := Ans.ofResS .copied
          (Forest.cloneForeignTreeWithIdMapping cap cl (fun l a b => Req.record limit l (a, b)) g x (f, []))
        (w.set dst q.1, q.2)
      else (w, .absent)
    | _, _ => (w, .absent)
  | .dup i cl =>
    match w[i]? with
    | some f =>
      match f.tryClone cl with
      | .ok g => (w ++ [g], .id w.length)
      | .error e => (w, .ofFail e)
    | none => (w, .absent)

namespace Plain

/-- `Forest::clone`, naively: the same trees with the same IDs and copied data. -/
def dup (cl : T → Option T) (r : Plain T) : Plain T :=
  ⟨r.issued, r.trees.map fun t => t.map fun p => (p.1, (cl p.2).getD p.2)⟩

/-- On naive forests; `none` if nothing is promised. -/
def act (cap um : Nat) (w : List (Plain T)) : Act T → Option (List (Plain T) × Ans T)
  | .new => some (w ++ [empty], .id w.length)
  | .on i q =>
    match w[i]? with
    | some r => (r.exec cap um q).map fun y => (w.set i y.1, y.2)
    | none => some (w, .absent)
  | .foreign dst src x cl limit =>
    match w[dst]?, w[src]? with
    | some r, some r' =>
      match Wood.findL x r'.trees with
      | some t =>
        if dst ≠ src then
          let y := r.copyTree cap t cl limit
          some (w.set dst y.1, y.2)
        else some (w, .absent)
      | none => some (w, .absent)
    | _, _ => some (w, .absent)
  | .dup i cl =>
    match w[i]? with
    | some r =>
      if (Tree.preorderL r.trees).all fun p => (cl p.2).isSome then some (w ++ [r.dup cl], .id w.length)
      else some (w, .panicked)
    | none => some (w, .absent)

end Plain

/-- The answers a program gets in `n` steps, starting with the forests `w`; it decides by the answers obtained so
far. -/
def worldTranscript (cap um : Nat) (client : List (Ans T) → Act T) : Nat → List (Forest T) → List (Ans T) → List (Ans T)
  | 0, _, seen => seen
  | n + 1, w, seen =>
    let q := (client seen).exec cap um w
    worldTranscript cap um client n q.1 (seen ++ [q.2])

/-- The same with naive forests; the program is stopped at the first step for which nothing is promised. -/
def Plain.worldTranscript (cap um : Nat) (client : List (Ans T) → Act T) :
    Nat → List (Plain T) → List (Ans T) → List (Ans T)
  | 0, _, seen => seen
  | n + 1, w, seen =>
    match Plain.act cap um w (client seen) with
    | none => seen
    | some q => Plain.worldTranscript cap um client n q.1 (seen ++ [q.2])

end Treena
