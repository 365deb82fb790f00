import Verif.Proof.OwnId
import Verif.Props.SampleRun
/-! # C76: ID types of the user's own -/
set_option autoImplicit false

namespace Treena
variable {I T : Type}

/-- **C76**: let the two conversions of an ID type be inverse to each other.  Then each call leaves the forest the same call
with the IDs of the crate leaves, and gives the same answer, up to the replacement of the IDs. -/
theorem C76_calls [DecidableEq I] (ty : IdImpl I) (hty : ty.Lawful) (cap um : Nat) (f : Forest T) (q : OwnReq I T) :
    (q.exec ty cap um f).1 = ((q.inner ty.unwrap).exec cap um f).1 ∧
    (q.exec ty cap um f).2 = ((q.inner ty.unwrap).exec cap um f).2.outer ty.wrap := by
  rw [own_exec hty]
  exact ⟨rfl, rfl⟩

/-- C76: the same for whole sessions.  A client that decides on each call by what it has seen so far sees what a client of
the ID types of the crate sees, up to the replacement of the IDs. -/
theorem C76_client [DecidableEq I] (ty : IdImpl I) (hty : ty.Lawful) (cap um : Nat)
    (client : List (OwnAns I T) → OwnReq I T) (n : Nat) : ∀ (f : Forest T) (seen : List (Ans T)),
    ownTranscript ty cap um client n f (seen.map (Ans.outer ty.wrap)) =
      (transcript cap um (fun l => (client (l.map (Ans.outer ty.wrap))).inner ty.unwrap) n f seen).map
        (Ans.outer ty.wrap) := by
  induction n with
  | zero => intro f seen; rfl
  | succ n ih =>
    intro f seen
    simp only [ownTranscript, transcript]
    rw [(C76_calls ty hty cap um f _).1, (C76_calls ty hty cap um f _).2, ← ih]
    simp

/-- C76: so no client can tell one ID type from another.  If two clients, with two ID types, always make the same call up to
the replacement of the IDs, then they see the same up to the replacement of the IDs. -/
theorem C76_two_types {J : Type} [DecidableEq I] [DecidableEq J] (ty : IdImpl I) (hty : ty.Lawful) (ty' : IdImpl J)
    (hty' : ty'.Lawful) (cap um : Nat) (client : List (OwnAns I T) → OwnReq I T) (client' : List (OwnAns J T) → OwnReq J T)
    (h : ∀ seen : List (Ans T), (client (seen.map (Ans.outer ty.wrap))).inner ty.unwrap =
      (client' (seen.map (Ans.outer ty'.wrap))).inner ty'.unwrap) (n : Nat) :
    ∃ seen : List (Ans T), ownTranscript ty cap um client n Forest.new [] = seen.map (Ans.outer ty.wrap) ∧
      ownTranscript ty' cap um client' n Forest.new [] = seen.map (Ans.outer ty'.wrap) := by
  refine ⟨_, C76_client ty hty cap um client n Forest.new [], ?_⟩
  rw [funext h]
  exact C76_client ty' hty' cap um client' n Forest.new []

/-- C76: `clone_foreign_tree_with_id_mapping` with any callback: if two callbacks do the same up to the replacement of the
IDs (`G` relating what they have captured), the two calls do the same, leave the same forest, and the callbacks have captured
the same. -/
theorem C76_clone_foreign [DecidableEq I] (ty : IdImpl I) (hty : ty.Lawful) {S S' : Type} (G : S → S')
    (hook : Forest.MapHook S) (hook' : Own.MapHook S' I)
    (hs : ∀ s a b, hook' (G s) (ty.wrap a) (ty.wrap b) = match hook s a b with
      | .ok s' => .ok (G s')
      | .error s' => .error (G s'))
    (cap : Nat) (cl : T → Option T) (fsrc f : Forest T) (x : I) (s : S) :
    Own.cloneForeignTreeWithIdMapping ty cap cl hook' fsrc x (f, G s) =
      match Forest.cloneForeignTreeWithIdMapping cap cl hook fsrc (ty.unwrap x) (f, s) with
      | .ok n (f', s') => .ok (ty.wrap n) (f', G s')
      | .fail e (f', s') => .fail e (f', G s') := by
  have := Own.cloneForeign_sim hty (G := G) (hook := hook) (hook' := hook') hs cap cl fsrc x (f, s)
  refine this.trans ?_
  rcases Forest.cloneForeignTreeWithIdMapping cap cl hook fsrc (ty.unwrap x) (f, s) with ⟨a, f', s'⟩ | ⟨e, f', s'⟩ <;> rfl

/-- C76: the same for `clone_local_tree_with_id_mapping`. -/
theorem C76_clone_local [DecidableEq I] (ty : IdImpl I) (hty : ty.Lawful) {S S' : Type} (G : S → S')
    (hook : Forest.MapHook S) (hook' : Own.MapHook S' I)
    (hs : ∀ s a b, hook' (G s) (ty.wrap a) (ty.wrap b) = match hook s a b with
      | .ok s' => .ok (G s')
      | .error s' => .error (G s'))
    (cap : Nat) (cl : T → Option T) (f : Forest T) (x : I) (s : S) :
    Own.cloneLocalTreeWithIdMapping ty cap cl hook' x (f, G s) =
      match Forest.cloneLocalTreeWithIdMapping cap cl hook (ty.unwrap x) (f, s) with
      | .ok n (f', s') => .ok (ty.wrap n) (f', G s')
      | .fail e (f', s') => .fail e (f', G s') := by
  have := Own.cloneLocal_sim hty (G := G) (hook := hook) (hook' := hook') hs cap cl x (f, s)
  refine this.trans ?_
  rcases Forest.cloneLocalTreeWithIdMapping cap cl hook (ty.unwrap x) (f, s) with ⟨a, f', s'⟩ | ⟨e, f', s'⟩ <;> rfl

/-- The forest after a client's calls. -/
def ownForest [DecidableEq I] (ty : IdImpl I) (cap um : Nat) (qs : List (OwnReq I T)) (f : Forest T) : Forest T :=
  qs.foldl (fun f q => (q.exec ty cap um f).1) f

theorem ownForest_evolves [DecidableEq I] (ty : IdImpl I) (cap um : Nat) (qs : List (OwnReq I T)) :
    ∀ f : Forest T, Evolves f (ownForest ty cap um qs f) := by
  induction qs with
  | nil => intro f; exact evolves_ord.refl f
  | cons q qs ih => intro f; exact evolves_ord.trans (own_evolves cap um f q) (ih _)

/-- C76: for *any* ID type, with conversions that are not inverse to each other: after any calls the two vectors of the forest
still agree on which nodes are alive, and a node that was dead at some time still is. -/
theorem C76_any_id_type [DecidableEq I] (ty : IdImpl I) (cap um : Nat) (qs qs' : List (OwnReq I T)) :
    Coherent (ownForest ty cap um qs Forest.new) ∧
    Later (ownForest ty cap um qs Forest.new) (ownForest ty cap um (qs ++ qs') Forest.new) := by
  have h := ownForest_evolves ty cap um qs Forest.new coherent_new
  refine ⟨h.1, ?_⟩
  have := (ownForest_evolves ty cap um qs' (ownForest ty cap um qs Forest.new) h.1).2
  unfold ownForest at this ⊢
  rwa [List.foldl_append]

/-! ### Examples -/

/-- `struct MyId { raw: InternalId }` with `impl_dynamic_node_id!`. -/
structure MyId where
  raw : Nat
deriving DecidableEq

/-- `impl_dynamic_node_id!(MyId, .., raw)`. -/
def MyId.impl : IdImpl MyId := ⟨fun n => { raw := n }, fun x => x.raw⟩

/-- A type given to the macro is lawful. -/
theorem C76_macro_lawful : MyId.impl.Lawful := ⟨fun _ => rfl, fun _ => rfl⟩
/-- The ID types of the crate are. -/
theorem C76_internal_lawful : IdImpl.internal.Lawful := ⟨fun _ => rfl, fun _ => rfl⟩

/-- A session with `MyId`: two nodes, an insertion, a traversal. -/
example : ownTranscript MyId.impl 10 100 (fun seen : List (OwnAns MyId Char) => match seen with
      | [] => .createRoot 'a'
      | [.id r] => .createInsert 'b' (.lastChildOf r)
      | [.id r, .id _] => .dft r [.front, .front, .back, .back]
      | _ => .alive ⟨7⟩) 4 Forest.new [] =
    [.id ⟨0⟩, .id ⟨1⟩, .events [some (.opn ⟨0⟩), some (.opn ⟨1⟩), some (.cls ⟨0⟩), some (.cls ⟨1⟩)], .flag false] := by
  decide +kernel

/-- Lawfulness is needed: a conversion that forgets the ID gives two nodes the same one. -/
example : ¬ (⟨fun _ => (), fun _ => 0⟩ : IdImpl Unit).Lawful ∧
    ownTranscript ⟨fun _ => (), fun _ => 0⟩ 10 100 (fun seen : List (OwnAns Unit Char) => match seen with
      | [] => .createRoot 'a'
      | [_] => .createRoot 'b'
      | _ => .data ()) 3 Forest.new [] = [.id (), .id (), .datum (some 'a')] :=
  ⟨fun h => by simpa using h.unwrap_wrap 1, by decide +kernel⟩

/-! ### The hypotheses can be met

Each example applies the theorem named in its comment to a concrete forest. -/

section
/-- `C76_calls`: `MyId` and the sample forest. -/
example := C76_calls MyId.impl C76_macro_lawful 100 255 Sample.built (.createInsert 42 (.lastChildOf ⟨2⟩))

/-- `C76_client`: `MyId`. -/
example (client : List (OwnAns MyId Nat) → OwnReq MyId Nat) (n : Nat) := C76_client MyId.impl C76_macro_lawful 100 255 client n Sample.built []

/-- `C76_clone_local`: a callback that counts. -/
example := C76_clone_local MyId.impl C76_macro_lawful (id : Nat → Nat) (fun k _ _ => if k = 2 then .error k else .ok (k + 1))
  (fun k _ _ => if k = 2 then .error k else .ok (k + 1)) (fun s a b => by simp only [id]; split <;> rfl) 100 some Sample.built ⟨2⟩ 0

/-- `C76_clone_foreign`: the same. -/
example := C76_clone_foreign MyId.impl C76_macro_lawful (id : Nat → Nat) (fun k _ _ => if k = 2 then .error k else .ok (k + 1))
  (fun k _ _ => if k = 2 then .error k else .ok (k + 1)) (fun s a b => by simp only [id]; split <;> rfl) 100 some Sample.built Forest.new ⟨2⟩ 0

/-- `C76_two_types`: clients that ask the same with two ID types. -/
example := C76_two_types (T := Nat) MyId.impl C76_macro_lawful MyId.impl C76_macro_lawful 100 255 (fun seen => if seen.length = 0 then .createRoot 5 else .dft ⟨0⟩ [.front])
  (fun seen => if seen.length = 0 then .createRoot 5 else .dft ⟨0⟩ [.front]) (fun _ => rfl) 3

end

end Treena
