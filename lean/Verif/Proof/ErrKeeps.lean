import Verif.Model.History
/-!
# A returned `Err` means that nothing was changed

On raw states, consistent or not. -/
namespace Treena

/-- Whenever `m` returns `Err`, the state is what it was. -/
def ErrKeeps {σ ε α : Type} (m : M σ (Except ε α)) : Prop :=
  ∀ s e s', m s = .ok (.error e) s' → s' = s

/-- `m` never returns `Err`. -/
def NoErr {σ ε α : Type} (m : M σ (Except ε α)) : Prop :=
  ∀ s e s', m s ≠ .ok (.error e) s'

namespace ErrKeeps
variable {σ τ ε α β : Type}

theorem pure (r : Except ε α) : ErrKeeps (Pure.pure r : M σ (Except ε α)) := by
  intro s e s' h
  simp only [M.run_pure, Res.ok.injEq] at h
  exact h.2.symm

theorem of_noErr {m : M σ (Except ε α)} (h : NoErr m) : ErrKeeps m := fun s e s' hs => absurd hs (h s e s')

theorem read_bind (r : σ → R β) {k : β → M σ (Except ε α)} (hk : ∀ b, ErrKeeps (k b)) :
    ErrKeeps (M.read r >>= k) := by
  intro s e s' h
  simp only [M.run_bind, M.read] at h
  cases hr : r s with
  | error e' => simp [hr] at h
  | ok b => simp only [hr] at h; exact hk b s e s' h

theorem zoom {getF : τ → σ} {setF : σ → τ → τ} {m : M σ (Except ε α)} (hm : ErrKeeps m)
    (hset : ∀ t, setF (getF t) t = t) : ErrKeeps (M.zoom getF setF m) := by
  intro t e t' h
  simp only [M.zoom] at h
  cases hr : m (getF t) with
  | fail e' s' => simp [hr] at h
  | ok a s' =>
    simp only [hr, Res.ok.injEq] at h
    obtain ⟨rfl, rfl⟩ := h
    rw [hm _ _ _ hr, hset]

end ErrKeeps

namespace NoErr
variable {σ ε α β : Type}

theorem bind (m : M σ β) {k : β → M σ (Except ε α)} (hk : ∀ b, NoErr (k b)) : NoErr (m >>= k) := by
  intro s e s' h
  simp only [M.run_bind] at h
  cases hr : m s with
  | fail e' s1 => simp [hr] at h
  | ok b s1 => simp only [hr] at h; exact hk b s1 e s' h

theorem pureOk (a : α) : NoErr (Pure.pure (.ok a) : M σ (Except ε α)) := by
  intro s e s' h; simp at h

theorem panic (msg : String) : NoErr (M.panic msg : M σ (Except ε α)) := by
  intro s e s' h; simp at h

end NoErr

namespace Hier

theorem transplant_errKeeps (a b p : Nat) (o n : Option Nat) : ErrKeeps (transplant a b p o n) := by
  unfold transplant
  refine ErrKeeps.read_bind _ fun cyc => ?_
  cases cyc with
  | true => exact ErrKeeps.pure _
  | false =>
    refine ErrKeeps.of_noErr ?_
    exact NoErr.bind _ fun _ => NoErr.bind _ fun _ => NoErr.bind _ fun _ => NoErr.bind _ fun _ => NoErr.pureOk _

theorem insert_errKeeps (x : Nat) (d : InsertAs) : ErrKeeps (Hier.insert x d) := by
  unfold Hier.insert
  cases d with
  | firstChildOf p =>
    exact ErrKeeps.read_bind _ fun _ => ErrKeeps.read_bind _ fun _ => ErrKeeps.read_bind _ fun _ =>
      transplant_errKeeps _ _ _ _ _
  | lastChildOf p =>
    exact ErrKeeps.read_bind _ fun _ => ErrKeeps.read_bind _ fun _ => ErrKeeps.read_bind _ fun _ =>
      transplant_errKeeps _ _ _ _ _
  | previousSiblingOf n =>
    simp only [insertBefore]
    split
    · exact ErrKeeps.pure _
    · exact ErrKeeps.read_bind _ fun _ => ErrKeeps.read_bind _ fun _ => ErrKeeps.read_bind _ fun _ =>
        ErrKeeps.read_bind _ fun _ => ErrKeeps.read_bind _ fun _ => transplant_errKeeps _ _ _ _ _
  | nextSiblingOf n =>
    simp only [insertAfter]
    split
    · exact ErrKeeps.pure _
    · exact ErrKeeps.read_bind _ fun _ => ErrKeeps.read_bind _ fun _ => ErrKeeps.read_bind _ fun _ =>
        ErrKeeps.read_bind _ fun _ => ErrKeeps.read_bind _ fun _ => transplant_errKeeps _ _ _ _ _

theorem detachSingle_errKeeps (x : Nat) : ErrKeeps (Hier.detachSingle x) := by
  unfold Hier.detachSingle
  refine ErrKeeps.read_bind _ fun nb => ErrKeeps.read_bind _ fun fl => ?_
  cases fl with
  | none => exact ErrKeeps.of_noErr (NoErr.bind _ fun _ => NoErr.pureOk _)
  | some q =>
    obtain ⟨a, b⟩ := q
    refine ErrKeeps.read_bind _ fun p => ?_
    cases p with
    | none =>
      simp only
      split
      · exact ErrKeeps.pure _
      · exact ErrKeeps.of_noErr (NoErr.bind _ fun _ => NoErr.bind _ fun _ => NoErr.pureOk _)
    | some p =>
      simp only
      refine ErrKeeps.of_noErr ?_
      refine NoErr.bind _ fun _ => NoErr.bind _ fun _ => NoErr.bind _ fun _ => NoErr.bind _ fun _ =>
        NoErr.bind _ fun r => ?_
      cases r with
      | error e => exact NoErr.panic _
      | ok u =>
        refine NoErr.bind _ fun _ => NoErr.bind _ fun _ => NoErr.bind _ fun fc => ?_
        split
        · exact NoErr.panic _
        · exact NoErr.pureOk _

end Hier

variable {T : Type}

theorem onHier_errKeeps {ε α : Type} {m : M Hier (Except ε α)} (hm : ErrKeeps m) :
    ErrKeeps (Forest.onHier m : M (Forest T) (Except ε α)) := ErrKeeps.zoom hm fun _ => rfl

end Treena
