import Verif.Spec.Plain
import Verif.Model.OwnId
/-!
# Specification: clients with an ID type of their own

`OwnReq` and `OwnAns` are the calls and answers of `Spec/Plain.lean` with IDs of the user's type; `OwnReq.exec` makes the
call.  `OwnReq.inner` and `Ans.outer` only replace the IDs.
-/
set_option autoImplicit false

namespace Treena
variable {I T : Type}

/-- The two conversions are inverse to each other, as they are for each type given to `impl_dynamic_node_id!` (`id.rs`
57-72): `Self { field: id }` and `self.field` of a structure with this field only, the expression `Self { field: id }` being
rejected by the compiler if there are others. -/
structure IdImpl.Lawful (ty : IdImpl I) : Prop where
  unwrap_wrap : ∀ n, ty.unwrap (ty.wrap n) = n
  wrap_unwrap : ∀ x, ty.wrap (ty.unwrap x) = x

/-- A call of the public interface; see `Req`. -/
inductive OwnReq (I T : Type) where
  | alive (x : I)
  | data (x : I)
  | link (x : I) (k : Link)
  | ends (x : I)
  | near (x : I) (k : Link)
  | nearEnds (x : I)
  | dft (x : I) (ds : List Dir)
  | shallow (x : I) (max : Option Nat) (ds : List Dir)
  | bft (x : I) (n : Nat)
  | abft (x : I) (n : Nat)
  | ancestors (x : I) (self : Bool) (n : Nat)
  | row (x : I) (k : Row) (ds : List Dir)
  | createRoot (d : T)
  | createInsert (d : T) (dest : OwnInsertAs I)
  | setData (x : I) (v : T)
  | insert (x : I) (dest : OwnInsertAs I)
  | detach (x : I)
  | detachSingle (x : I)
  | drop (x : I)
  | remove (x : I) (limit : Option Nat)
  | removeSafe (x : I) (limit : Option Nat)
  | copy (x : I) (cl : T → Option T) (limit : Option Nat)
  | dup (x : I) (cl : T → Option T)
  | nodeCreate (self : I) (d : T) (dest : AdoptAs)
  | tryAdopt (self x : I) (dest : AdoptAs)
  | adopt (self x : I) (dest : AdoptAs)
  | nest (d : T) (calls : List (NestCall T))
  | chain (d : T) (calls : List (ChainCall T))
  | print (x : I) (pieces : T → List Text)

/-- What the caller gets to see; see `Ans`. -/
inductive OwnAns (I T : Type) where
  | panicked
  | hung
  | absent
  | done
  | err (e : StructureError)
  | flag (b : Bool)
  | id (n : I)
  | datum (o : Option T)
  | link (o : Option I)
  | ends (o : Option (I × I))
  | near (o : Option (I × T))
  | nearEnds (o : Option ((I × T) × I × T))
  | dropped (l : List T)
  | copied (n : I) (l : List (I × I))
  | events (l : List (Option (Ev I)))
  | devents (l : List (Option (Ev I × Nat)))
  | levels (l : List (Option (I × Nat)))
  | nodes (l : List (Option I))
  | text (ok : Bool) (l : Text)
deriving DecidableEq

/-- The same call with the IDs replaced. -/
def OwnReq.inner (g : I → Nat) : OwnReq I T → Req T
  | .alive x => .alive (g x)
  | .data x => .data (g x)
  | .link x k => .link (g x) k
  | .ends x => .ends (g x)
  | .near x k => .near (g x) k
  | .nearEnds x => .nearEnds (g x)
  | .dft x ds => .dft (g x) ds
  | .shallow x max ds => .shallow (g x) max ds
  | .bft x n => .bft (g x) n
  | .abft x n => .abft (g x) n
  | .ancestors x self n => .ancestors (g x) self n
  | .row x k ds => .row (g x) k ds
  | .createRoot d => .createRoot d
  | .createInsert d (.firstChildOf a) => .createInsert d (.firstChildOf (g a))
  | .createInsert d (.lastChildOf a) => .createInsert d (.lastChildOf (g a))
  | .createInsert d (.previousSiblingOf a) => .createInsert d (.previousSiblingOf (g a))
  | .createInsert d (.nextSiblingOf a) => .createInsert d (.nextSiblingOf (g a))
  | .setData x v => .setData (g x) v
  | .insert x (.firstChildOf a) => .insert (g x) (.firstChildOf (g a))
  | .insert x (.lastChildOf a) => .insert (g x) (.lastChildOf (g a))
  | .insert x (.previousSiblingOf a) => .insert (g x) (.previousSiblingOf (g a))
  | .insert x (.nextSiblingOf a) => .insert (g x) (.nextSiblingOf (g a))
  | .detach x => .detach (g x)
  | .detachSingle x => .detachSingle (g x)
  | .drop x => .drop (g x)
  | .remove x limit => .remove (g x) limit
  | .removeSafe x limit => .removeSafe (g x) limit
  | .copy x cl limit => .copy (g x) cl limit
  | .dup x cl => .dup (g x) cl
  | .nodeCreate self d dest => .nodeCreate (g self) d dest
  | .tryAdopt self x dest => .tryAdopt (g self) (g x) dest
  | .adopt self x dest => .adopt (g self) (g x) dest
  | .nest d calls => .nest d calls
  | .chain d calls => .chain d calls
  | .print x pieces => .print (g x) pieces

/-- A traversal event with the ID replaced. -/
def Ev.replace {A B : Type} (g : A → B) : Ev A → Ev B
  | .opn x => .opn (g x)
  | .cls x => .cls (g x)

/-- The same answer with the IDs replaced. -/
def Ans.outer (g : Nat → I) : Ans T → OwnAns I T
  | .panicked => .panicked
  | .hung => .hung
  | .absent => .absent
  | .done => .done
  | .err e => .err e
  | .flag b => .flag b
  | .id n => .id (g n)
  | .datum o => .datum o
  | .link o => .link (o.map g)
  | .ends o => .ends (o.map fun p => (g p.1, g p.2))
  | .near o => .near (o.map fun p => (g p.1, p.2))
  | .nearEnds o => .nearEnds (o.map fun p => ((g p.1.1, p.1.2), g p.2.1, p.2.2))
  | .dropped l => .dropped l
  | .copied n l => .copied (g n) (l.map fun p => (g p.1, g p.2))
  | .events l => .events (l.map fun o => o.map (Ev.replace g))
  | .devents l => .devents (l.map fun o => o.map fun p => (p.1.replace g, p.2))
  | .levels l => .levels (l.map fun o => o.map fun p => (g p.1, p.2))
  | .nodes l => .nodes (l.map fun o => o.map g)
  | .text ok l => .text ok l

namespace OwnAns

/-- A call that did not return. -/
def ofFail : Fail → OwnAns I T
  | .panic _ => .panicked
  | .diverge => .hung

/-- The answer of a read-only call. -/
def ofR {α : Type} (k : α → OwnAns I T) : R α → OwnAns I T
  | .ok a => k a
  | .error e => ofFail e

/-- The answer of a mutating call, and the forest after it. -/
def ofRes {α : Type} (k : α → OwnAns I T) : Res (Forest T) α → Forest T × OwnAns I T
  | .ok a f => (f, k a)
  | .fail e f => (f, ofFail e)

/-- The same with a callback whose captured state is shown. -/
def ofResS {α S : Type} (k : α → S → OwnAns I T) : Res (Forest T × S) α → Forest T × OwnAns I T
  | .ok a (f, c) => (f, k a c)
  | .fail e (f, _) => (f, ofFail e)

/-- `Ok(())` or `Err(e)`. -/
def ofExcept : Except StructureError Unit → OwnAns I T
  | .ok () => .done
  | .error e => .err e

end OwnAns

namespace OwnReq
variable (ty : IdImpl I)

/-- The accessor for a link. -/
def linkOf (f : Forest T) (x : I) : Link → R (Option I)
  | .parent => Own.parentId ty f x
  | .next => Own.nextSiblingId ty f x
  | .prev => Own.prevSiblingId ty f x
  | .firstChild => Own.firstChildId ty f x
  | .lastChild => Own.lastChildId ty f x

/-- `Node::parent` etc.; then the datum of that node is looked at. -/
def nearOf (f : Forest T) (x : I) (k : Link) : R (Option (I × T)) :=
  match Own.viaNode ty f (linkOf ty f x k) with
  | .error e => .error e
  | .ok none => .ok none
  | .ok (some y) => (Own.nodeData ty f y).map fun d => some (y, d)

/-- `Node::first_last_child`; then the data are looked at. -/
def nearEndsOf (f : Forest T) (x : I) : R (Option ((I × T) × I × T)) :=
  match Own.firstLastChild ty f x with
  | .error e => .error e
  | .ok none => .ok none
  | .ok (some (y, z)) =>
    match Own.nodeData ty f y with
    | .error e => .error e
    | .ok d => (Own.nodeData ty f z).map fun d' => some ((y, d), z, d')

/-- The iterator. -/
def rowOf (f : Forest T) (x : I) : Row → R Siblings.St
  | .children => Own.children ty f x
  | .following => Own.followingSiblings ty f x
  | .followingOrSelf => Own.followingSiblingsOrSelf ty f x
  | .preceding => Own.precedingSiblings ty f x
  | .precedingOrSelf => Own.precedingSiblingsOrSelf ty f x

/-- One call on the modelled code. -/
def exec [DecidableEq I] (cap um : Nat) (f : Forest T) : OwnReq I T → Forest T × OwnAns I T
  | .alive x => (f, .flag (Own.node ty f x).isSome)
  | .data x => (f, .datum (Own.getData ty f x))
  | .link x k => (f, match Own.node ty f x with | some n => .ofR .link (linkOf ty f n k) | none => .absent)
  | .ends x => (f, match Own.node ty f x with | some n => .ofR .ends (Own.firstLastChildId ty f n) | none => .absent)
  | .near x k => (f, match Own.node ty f x with | some n => .ofR .near (nearOf ty f n k) | none => .absent)
  | .nearEnds x => (f, match Own.node ty f x with | some n => .ofR .nearEnds (nearEndsOf ty f n) | none => .absent)
  | .dft x ds => (f, .ofR .events (Req.iterate (Own.dftNext ty f) (Own.dftNextBack ty f) (Own.depthFirstTraverse ty f x) ds))
  | .shallow x max ds => (f, .ofR .devents
      (Req.iterate (Own.shallowNext ty f) (Own.shallowNextBack ty f) (Own.shallowDepthFirstTraverse ty um f x max) ds))
  | .bft x n => (f, .ofR .levels (Req.iterate1 (Own.bftNext ty um f) (Own.breadthFirstTraverse ty um f x) n))
  | .abft x n => (f, .ofR .levels (Req.iterate1 (Own.abftNext ty f) (Own.allocatingBreadthFirstTraverse ty f x) n))
  | .ancestors x self n => (f, .ofR .nodes
      (Req.iterate1 (Own.ancestorsNext ty f) (if self then Own.ancestorsOrSelf ty f x else Own.ancestors ty f x) n))
  | .row x k ds => (f, .ofR .nodes (Req.iterate (Own.siblingsNext ty f) (Own.siblingsNextBack ty f) (rowOf ty f x k) ds))
  | .createRoot d => OwnAns.ofRes .id (Own.createRoot ty cap d f)
  | .createInsert d dest => OwnAns.ofRes .id (Own.createInsert ty cap d dest f)
  | .setData x v => OwnAns.ofRes .flag (Own.setData ty x v f)
  | .insert x dest => OwnAns.ofRes .ofExcept (Own.insert ty x dest f)
  | .detach x => OwnAns.ofRes (fun _ => .done) (Own.detach ty x f)
  | .detachSingle x => OwnAns.ofRes .ofExcept (Own.detachSingle ty x f)
  | .drop x => OwnAns.ofRes (fun _ => .done) (Own.remove ty x f)
  | .remove x limit => OwnAns.ofResS (fun _ c => .dropped c) (Own.removeHooked ty (Req.record limit) x (f, []))
  | .removeSafe x limit =>
      OwnAns.ofResS (fun _ c => .dropped c) (Own.removeHookedPanicSafe ty (Req.record limit) x (f, []))
  | .copy x cl limit =>
      OwnAns.ofResS .copied (Own.cloneLocalTreeWithIdMapping ty cap cl (fun l a b => Req.record limit l (a, b)) x (f, []))
  | .dup x cl => OwnAns.ofRes .id (Own.cloneLocalTree ty cap cl x f)
  | .nodeCreate self d dest =>
      match Own.node ty f self with
      | some n => OwnAns.ofRes .id (Own.nodeCreate ty cap n d dest f)
      | none => (f, .absent)
  | .tryAdopt self x dest =>
      match Own.node ty f self with
      | some n => OwnAns.ofRes .ofExcept (Own.tryAdopt ty n x dest f)
      | none => (f, .absent)
  | .adopt self x dest =>
      match Own.node ty f self with
      | some n => OwnAns.ofRes (fun _ => .done) (Own.adopt ty n x dest f)
      | none => (f, .absent)
  | .nest d calls => OwnAns.ofRes .id (Own.nestBuild ty cap d calls f)
  | .chain d calls => OwnAns.ofRes .id (Own.chainBuild ty cap d calls f)
  | .print x pieces =>
      (f, match Own.debugPrint ty (fun out piece => .ok (out ++ piece)) (fun d => .ofPieces true (pieces d)) f x [] with
        | .ok r out => .text r.toBool out
        | .fail e _ => .ofFail e)

end OwnReq

/-- The answers a client gets in `n` calls; it decides by the answers obtained so far. -/
def ownTranscript [DecidableEq I] (ty : IdImpl I) (cap um : Nat) (client : List (OwnAns I T) → OwnReq I T) :
    Nat → Forest T → List (OwnAns I T) → List (OwnAns I T)
  | 0, _, seen => seen
  | n + 1, f, seen =>
    let q := (client seen).exec ty cap um f
    ownTranscript ty cap um client n q.1 (seen ++ [q.2])

end Treena
