import Verif.Proof.Raw
/-! Calls on dead nodes panic before any change, whatever the state of the arena. -/
namespace Treena
namespace Hier

theorem rangeSingle_dead {h : Hier} {x : Nat} (hx : ¬ h.live x) :
    rangeSingle h x = .error (.panic "[precondition] the node must be alive") := by
  unfold rangeSingle
  have : h.isAlive x = false := by
    rw [← Bool.not_eq_true, isAlive_iff]; exact hx
  simp [this]

theorem lastChild_error {h : Hier} {nb : Neighbors} {e : Fail} (he : nb.lastChild h = .error e) :
    ∃ msg, e = .panic msg := by
  unfold Neighbors.lastChild at he
  split at he
  · rename_i e' h1
    cases he
    unfold Neighbors.firstLastChild at h1
    split at h1
    · cases h1; exact ⟨_, rfl⟩
    · split at h1
      · rename_i h2
        cases h1
        unfold Neighbors.firstChild at h2
        split at h2
        · cases h2; exact ⟨_, rfl⟩
        · simp at h2
      · simp at h1
      · split at h1
        · cases h1; exact ⟨_, rfl⟩
        · split at h1
          · simp at h1
          · cases h1; exact ⟨_, rfl⟩
  · simp at he

theorem prevSibling_error {h : Hier} {nb : Neighbors} {e : Fail} (he : nb.prevSibling h = .error e) :
    ∃ msg, e = .panic msg := by
  unfold Neighbors.prevSibling at he
  split at he
  · cases he; exact ⟨_, rfl⟩
  · split at he
    · cases he; exact ⟨_, rfl⟩
    · simp at he

theorem detach_dead {h : Hier} {x : Nat} (hx : ¬ h.live x) : ∃ msg, detach x h = .fail (.panic msg) h := by
  unfold detach; simp only [M.run_bind, nbrOf_dead hx]; exact ⟨_, rfl⟩

theorem detachSingle_dead {h : Hier} {x : Nat} (hx : ¬ h.live x) :
    ∃ msg, detachSingle x h = .fail (.panic msg) h := by
  unfold detachSingle; simp only [M.run_bind, nbrOf_dead hx]; exact ⟨_, rfl⟩

/-- The only request with a dead node that is answered without a panic is the sibling of itself. -/
theorem insert_dead {h : Hier} {x : Nat} {d : InsertAs} (hd : ¬ h.live x ∨ ¬ h.live d.toAnchor)
    (hne : d ≠ .previousSiblingOf x ∧ d ≠ .nextSiblingOf x) :
    ∃ msg, insert x d h = .fail (.panic msg) h := by
  cases d with
  | firstChildOf p =>
    simp only [InsertAs.toAnchor] at hd
    unfold insert prependChild
    by_cases hp : h.live p
    · have hx : ¬ h.live x := hd.resolve_right (fun h => h hp)
      simp only [M.run_bind, nbrOf_live hp, M.read, firstChild_live hp, rangeSingle_dead hx]
      exact ⟨_, rfl⟩
    · simp only [M.run_bind, nbrOf_dead hp]; exact ⟨_, rfl⟩
  | lastChildOf p =>
    simp only [InsertAs.toAnchor] at hd
    unfold insert appendChild
    by_cases hp : h.live p
    · have hx : ¬ h.live x := hd.resolve_right (fun h => h hp)
      simp only [M.run_bind, nbrOf_live hp, M.read]
      cases hl : (h.get p).lastChild h with
      | error e => obtain ⟨m, rfl⟩ := lastChild_error hl; exact ⟨_, rfl⟩
      | ok o => simp only [rangeSingle_dead hx]; exact ⟨_, rfl⟩
    · simp only [M.run_bind, nbrOf_dead hp]; exact ⟨_, rfl⟩
  | previousSiblingOf p =>
    simp only [InsertAs.toAnchor] at hd
    have hxp : x ≠ p := fun e => hne.1 (by rw [e])
    unfold insert insertBefore
    simp only [hxp, if_false]
    by_cases hp : h.live p
    · have hx : ¬ h.live x := hd.resolve_right (fun h => h hp)
      simp only [M.run_bind, nbrOf_live hp, M.read, getParent_live hp]
      cases (h.get p).parent with
      | none => exact ⟨_, rfl⟩
      | some q =>
        simp only [expect_some]
        cases hl : (h.get p).prevSibling h with
        | error e => obtain ⟨m, rfl⟩ := prevSibling_error hl; exact ⟨_, rfl⟩
        | ok o => simp only [rangeSingle_dead hx]; exact ⟨_, rfl⟩
    · simp only [M.run_bind, nbrOf_dead hp]; exact ⟨_, rfl⟩
  | nextSiblingOf p =>
    simp only [InsertAs.toAnchor] at hd
    have hxp : x ≠ p := fun e => hne.2 (by rw [e])
    unfold insert insertAfter
    simp only [hxp, if_false]
    by_cases hp : h.live p
    · have hx : ¬ h.live x := hd.resolve_right (fun h => h hp)
      simp only [M.run_bind, nbrOf_live hp, M.read, getParent_live hp]
      cases (h.get p).parent with
      | none => exact ⟨_, rfl⟩
      | some q =>
        simp only [expect_some, nextSibling_live hp, rangeSingle_dead hx]
        exact ⟨_, rfl⟩
    · simp only [M.run_bind, nbrOf_dead hp]; exact ⟨_, rfl⟩

end Hier
end Treena
