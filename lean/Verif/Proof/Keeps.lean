import Verif.Model.History
import Verif.Proof.Raw
/-! A small calculus: relations between the state before and after a computation that hold whatever its
outcome. -/
namespace Treena

/-- Whatever the outcome, the state before and the state after are related by `Q`. -/
def Keeps {σ α : Type} (Q : σ → σ → Prop) (m : M σ α) : Prop := ∀ s, Q s (m s).state

/-- Reflexive and transitive. -/
structure PreOrd {σ : Type} (Q : σ → σ → Prop) : Prop where
  refl : ∀ s, Q s s
  trans : ∀ {a b c}, Q a b → Q b c → Q a c

namespace Keeps
variable {σ τ α β : Type} {Q : σ → σ → Prop}

theorem pure (hQ : PreOrd Q) (a : α) : Keeps Q (Pure.pure a : M σ α) := fun s => hQ.refl s
theorem throw (hQ : PreOrd Q) (e : Fail) : Keeps Q (M.throw e : M σ α) := fun s => hQ.refl s
theorem panic (hQ : PreOrd Q) (e : String) : Keeps Q (M.panic e : M σ α) := fun s => hQ.refl s
theorem read (hQ : PreOrd Q) (f : σ → R α) : Keeps Q (M.read f) := fun s => by
  unfold M.read; cases f s <;> exact hQ.refl s

theorem bind (hQ : PreOrd Q) {m : M σ α} {f : α → M σ β} (hm : Keeps Q m) (hf : ∀ a, Keeps Q (f a)) :
    Keeps Q (m >>= f) := fun s => by
  have h := hm s
  rw [M.run_bind]
  cases hms : m s with
  | ok a s' => rw [hms] at h; exact hQ.trans h (hf a s')
  | fail e s' => rw [hms] at h; exact h

theorem mono {Q' : σ → σ → Prop} {m : M σ α} (hm : Keeps Q m) (h : ∀ a b, Q a b → Q' a b) :
    Keeps Q' m := fun s => h _ _ (hm s)

theorem zoom {get : τ → σ} {set : σ → τ → τ} {Q' : τ → τ → Prop} {m : M σ α} (hm : Keeps Q m)
    (h : ∀ t s, Q (get t) s → Q' t (set s t)) : Keeps Q' (M.zoom get set m) := fun t => by
  have := hm (get t)
  unfold M.zoom
  cases hms : m (get t) with
  | ok a s' => rw [hms] at this; exact h _ _ this
  | fail e s' => rw [hms] at this; exact h _ _ this

end Keeps

/-! ### Liveness-preserving computations on the arena -/
namespace Hier

/-- Same IDs, same liveness. -/
structure SameLive (h h' : Hier) : Prop where
  len : h'.nbrs.length = h.nbrs.length
  live : ∀ x, h'.isAlive x = h.isAlive x

theorem sameLive_ord : PreOrd SameLive :=
  ⟨fun _ => ⟨rfl, fun _ => rfl⟩, fun h1 h2 => ⟨h2.1.trans h1.1, fun x => (h2.2 x).trans (h1.2 x)⟩⟩

theorem updNbr_sameLive (id : Nat) (msg : String) {f : Neighbors → Neighbors}
    (hf : ∀ nb, nb.isAlive = true → (f nb).isAlive = true) : Keeps SameLive (updNbr id msg f) := by
  intro h
  by_cases hl : h.live id
  · rw [updNbr_live hl]
    refine ⟨by simp [Res.state], fun x => ?_⟩
    simp only [Res.state, isAlive_eq, get_put (live_lt hl)]
    split
    · rename_i e; subst e; rw [hf _ hl]; exact hl.symm
    · rfl
  · rw [updNbr_dead hl]; exact sameLive_ord.refl h

theorem nbrOf_keeps {Q : Hier → Hier → Prop} (hQ : PreOrd Q) (id : Nat) (msg : String) :
    Keeps Q (nbrOf id msg) := Keeps.read hQ _

macro "keeps_step" : tactic => `(tactic| first
  | exact Keeps.pure sameLive_ord _
  | exact Keeps.throw sameLive_ord _
  | exact Keeps.panic sameLive_ord _
  | exact Keeps.read sameLive_ord _
  | exact nbrOf_keeps sameLive_ord _ _
  | exact updNbr_sameLive _ _ (fun nb h => h)
  | exact updNbr_sameLive _ _ (fun nb h => rfl)
  | assumption
  | refine Keeps.bind sameLive_ord ?_ (fun _ => ?_)
  | split)

theorem connectTriangle_sameLive (parent prev next : Option Nat) :
    Keeps SameLive (connectTriangle parent prev next) := by
  have h1 : Keeps SameLive (connectPrev parent prev next) := by
    unfold connectPrev; repeat' keeps_step
  have h2 : Keeps SameLive (connectNext parent prev next) := by
    unfold connectNext; repeat' keeps_step
  have h3 : Keeps SameLive (connectParent parent prev next) := by
    unfold connectParent; repeat' keeps_step
  unfold connectTriangle; repeat' keeps_step

theorem detach_sameLive (x : Nat) : Keeps SameLive (detach x) := by
  have := fun a b c => connectTriangle_sameLive a b c
  unfold detach
  repeat' first | exact this _ _ _ | keeps_step

theorem rewriteParents_sameLive (parent last : Nat) : ∀ (fuel : Nat) (o : Option Nat),
    Keeps SameLive (rewriteParents parent last fuel o)
  | _, none => by unfold rewriteParents; exact Keeps.pure sameLive_ord _
  | 0, some _ => by unfold rewriteParents; exact Keeps.throw sameLive_ord _
  | fuel + 1, some child => by
    have := fun o => rewriteParents_sameLive parent last fuel o
    unfold rewriteParents
    repeat' first | exact this _ | keeps_step

theorem transplant_sameLive (first last parent : Nat) (p n : Option Nat) :
    Keeps SameLive (transplant first last parent p n) := by
  have h0 := fun a b c => connectTriangle_sameLive a b c
  have h1 : Keeps SameLive (transplantDisconnect first last) := by
    unfold transplantDisconnect
    repeat' first | exact h0 _ _ _ | keeps_step
  have h2 := fun a b => rewriteParents_sameLive parent last a b
  have h3 : Keeps SameLive (transplantConnect first last parent p n) := by
    unfold transplantConnect
    repeat' first | exact h0 _ _ _ | keeps_step
  unfold transplant
  repeat' first | exact h2 _ _ | keeps_step

theorem insert_sameLive (x : Nat) (d : InsertAs) : Keeps SameLive (insert x d) := by
  have h := fun a b c d e => transplant_sameLive a b c d e
  unfold insert prependChild appendChild insertBefore insertAfter
  repeat' first | exact h _ _ _ _ _ | keeps_step

theorem detachSingle_sameLive (x : Nat) : Keeps SameLive (detachSingle x) := by
  have h := fun a b c d e => transplant_sameLive a b c d e
  have h0 := fun a b c => connectTriangle_sameLive a b c
  have h1 := fun a => detach_sameLive a
  unfold detachSingle
  repeat' first | exact h _ _ _ _ _ | exact h0 _ _ _ | exact h1 _ | keeps_step

end Hier
end Treena
