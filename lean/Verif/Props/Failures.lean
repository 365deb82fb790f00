import Verif.Props.NoPanic
import Verif.Proof.Laws
import Verif.Props.SampleRun
/-!
# Failing calls (C42)
-/
set_option autoImplicit false

namespace Treena
variable {T : Type} {f : Forest T} {s : Shape} {cap : Nat}

/-- The calls that create at most one node and move or remove without user code: everything except
`create_insert`, `NodeMut::create`, the hooked removals, the clones and the builders. -/
def Op.Single : Op T → Prop
  | .createRoot _ | .setData _ _ | .insert _ _ | .detach _ | .detachSingle _ | .remove _ | .tryAdopt _ _ _
  | .adopt _ _ _ => True
  | _ => False

/-- `insert` on a consistent forest, all outcomes: `Ok`, or unchanged, or the only child case. -/
theorem insert_outcomes (hm : Models f s) (x : Nat) (d : InsertAs) :
    (∃ f', Forest.insert x d f = .ok (.ok ()) f') ∨
    ((∃ e, Forest.insert x d f = .ok (.error e) f) ∨ ∃ msg, Forest.insert x d f = .fail (.panic msg) f) ∨
    ∃ P, d = .lastChildOf P ∧ s.kids P = [x] := by
  by_cases hu : d = .previousSiblingOf x ∨ d = .nextSiblingOf x
  · exact .inr (.inl (.inl ⟨_, forest_insert_unorderable f hu⟩))
  by_cases hx : s.alive x = true ∧ s.alive d.place.anchor = true
  · cases hpp : s.placeParent d.place with
    | none => exact .inr (.inl (.inr ⟨_, forest_insert_rootSibling hm hx.1 hx.2 (not_or.1 hu) hpp⟩))
    | some P =>
      by_cases hl : ∃ P, d = .lastChildOf P ∧ s.kids P = [x]
      · exact .inr (.inr hl)
      · by_cases hcyc : AncOrSelf s.parent x P
        · exact .inr (.inl (.inl ⟨_, forest_insert_loop hm hx.1 hx.2 (not_or.1 hu) hpp hcyc⟩))
        · obtain ⟨r, f', h, hr⟩ := insert_returns hm (x := x) (d := d) ⟨hx.1, hx.2, by rw [hpp]; simp⟩ hl
          rw [hr ⟨fun e => hu (.inl e), fun e => hu (.inr e), fun Q hQ => by rw [hpp] at hQ; cases hQ; exact hcyc⟩]
            at h
          exact .inl ⟨f', h⟩
  · have hd : s.alive x = false ∨ s.alive d.place.anchor = false := by
      cases h1 : s.alive x
      · exact .inl rfl
      · cases h2 : s.alive d.place.anchor
        · exact .inr rfl
        · exact absurd ⟨h1, h2⟩ hx
    exact .inr (.inl (.inr (forest_insert_dead hm hd (not_or.1 hu))))

/-- **C42**.  On a consistent forest, a call of `create_root`, `insert`, `detach`, `detach_single`, `remove`,
`try_adopt`, `adopt` or a write to a datum that does not succeed (it returns `Err`, or it panics) leaves the
forest, links and data, exactly as it was.  The one exception is the `LastChildOf` request for an only child
(C08, C38), which panics half-way. -/
theorem C42_failure_changes_nothing (hm : Models f s) (op : Op T) (hs : op.Single)
    (hl : ¬ op.LastOfOnly s) (hf : op.succeeds cap f = false) : Op.step cap f op = f := by
  cases op with
  | createRoot d =>
    simp only [Op.succeeds, Op.step] at hf ⊢
    by_cases hc : s.size < cap
    · obtain ⟨f', h, _⟩ := createRoot_models hm hc d
      rw [h] at hf; cases hf
    · rw [createRoot_full hm (by omega) d]; rfl
  | setData id v =>
    simp only [Op.succeeds, Op.step] at hf ⊢
    cases h : Forest.setData id v f with
    | ok a g => rw [h] at hf; cases hf
    | fail e g =>
      unfold Forest.setData at h
      split at h <;> cases h
  | insert x d =>
    simp only [Op.succeeds, Op.step] at hf ⊢
    rcases insert_outcomes hm x d with ⟨f', h⟩ | (⟨e, h⟩ | ⟨m, h⟩) | h
    · rw [h] at hf; cases hf
    · rw [h]; rfl
    · rw [h]; rfl
    · exact absurd h hl
  | detach x =>
    simp only [Op.succeeds, Op.step] at hf ⊢
    cases hx : s.alive x with
    | true =>
      obtain ⟨f', h, _⟩ := forest_detach_models hm hx
      rw [h] at hf; cases hf
    | false => obtain ⟨m, h⟩ := forest_detach_dead hm hx; rw [h]; rfl
  | detachSingle x =>
    simp only [Op.succeeds, Op.step] at hf ⊢
    cases hx : s.alive x with
    | true =>
      by_cases h0 : s.parent x ≠ none ∨ (s.kids x).length ≤ 1
      · obtain ⟨f', h⟩ := (C14_detach_single_ok_iff hm hx).2 h0
        rw [h] at hf; cases hf
      · have hp : s.parent x = none := by
          by_cases e : s.parent x = none
          · exact e
          · exact absurd (.inl e) h0
        rw [(C14_detach_single_root hm hx hp).2.2 (by
          have := (not_or.1 h0).2; omega)]
        rfl
    | false => obtain ⟨m, h⟩ := forest_detachSingle_dead hm hx; rw [h]; rfl
  | remove x =>
    simp only [Op.succeeds] at hf
    obtain ⟨f', h, _⟩ := remove_char hm x
    rw [h] at hf; cases hf
  | tryAdopt self x dest =>
    simp only [Op.succeeds, Op.step] at hf ⊢
    have he : dest.insertWithAnchor self = adoptPlace self dest := by cases dest <;> rfl
    split
    · rename_i ha
      rw [ha, Bool.true_and] at hf
      have ht : NodeMut.tryAdopt self x dest f = Forest.insert x (adoptPlace self dest) f := by
        unfold NodeMut.tryAdopt; rw [he]; rfl
      rw [ht] at hf ⊢
      rcases insert_outcomes hm x (adoptPlace self dest) with ⟨f', h⟩ | (⟨e, h⟩ | ⟨m, h⟩) | ⟨P, h1, h2⟩
      · rw [h] at hf; cases hf
      · rw [h]; rfl
      · rw [h]; rfl
      · cases dest <;> cases h1
        exact absurd ⟨rfl, h2⟩ hl
    · rfl
  | adopt self x dest =>
    simp only [Op.succeeds, Op.step] at hf ⊢
    have he : dest.insertWithAnchor self = adoptPlace self dest := by cases dest <;> rfl
    split
    · rename_i ha
      rw [ha, Bool.true_and] at hf
      have ht : NodeMut.tryAdopt self x dest f = Forest.insert x (adoptPlace self dest) f := by
        unfold NodeMut.tryAdopt; rw [he]; rfl
      unfold NodeMut.adopt at hf ⊢
      simp only [M.run_bind, ht] at hf ⊢
      rcases insert_outcomes hm x (adoptPlace self dest) with ⟨f', h⟩ | (⟨e, h⟩ | ⟨m, h⟩) | ⟨P, h1, h2⟩
      · rw [h] at hf; cases hf
      · rw [h]; rfl
      · rw [h]; rfl
      · cases dest <;> cases h1
        exact absurd ⟨rfl, h2⟩ hl
    · rfl
  | _ => exact hs.elim

/-- C42 for `create_insert`, `NodeMut::create`: a failing call leaves the forest as it was, or with one more node,
which is a childless root holding the given datum. -/
theorem C42_create_insert_failure (hm : Models f s) (d : T) (dest : InsertAs) {e : Fail} {f' : Forest T}
    (h : Forest.createInsert cap d dest f = .fail e f') :
    f' = f ∨ (Forest.createRoot cap d f = .ok s.size f' ∧ Models f' s.addRoot) := by
  obtain ⟨h1, h2, h3⟩ := C12_create_insert_failures hm cap d dest
  by_cases ha : s.size ≤ dest.place.anchor
  · rw [h1 ha] at h; cases h; exact .inl rfl
  by_cases hc : cap ≤ s.size
  · rw [h2 (by omega) hc] at h; cases h; exact .inl rfl
  by_cases hb : s.alive dest.place.anchor = false ∨ s.placeParent dest.place = none
  · obtain ⟨msg, g, h4, h5, _, h6⟩ := h3 (by omega) (by omega) hb
    rw [h] at h4; cases h4
    obtain ⟨g, g1, g2, g3⟩ := createRoot_models hm (cap := cap) (by omega) d
    have : g = f' := forest_ext g2 h5 (fun y => by rw [g3, h6])
    exact .inr ⟨by rw [g1, this], h5⟩
  · obtain ⟨hb1, hb2⟩ := not_or.1 hb
    obtain ⟨P, hP⟩ := Option.ne_none_iff_exists'.1 hb2
    obtain ⟨g, g1, _⟩ := createInsert_models hm (cap := cap) (by omega) d (by simpa using hb1) hP
    rw [h] at g1; cases g1

/-! ### Examples -/

example : Op.step 100 Sample.built (.adopt 4 2 .lastChild) = Sample.built :=
  C42_failure_changes_nothing Sample.models _ trivial (by
    rintro ⟨_, h⟩; simp [Sample.shape, Sample.kids] at h) (by decide)

example : ∃ f', Forest.createInsert 100 5 (.nextSiblingOf 6) Sample.built =
    .fail (.panic "[precondition] the parent must be alive to have siblings") f' ∧
    Forest.createRoot 100 5 Sample.built = .ok 8 f' := ⟨_, rfl, rfl⟩

/-! ### The hypotheses can be met

Each example applies the theorem named in its comment to a concrete forest. -/

section
/-- `C42_create_insert_failure`: a child of the removed node 7. -/
example : ∃ e f', Forest.createInsert 100 42 (.lastChildOf 7) Sample.built = .fail e f' ∧
    (f' = Sample.built ∨ (Forest.createRoot 100 42 Sample.built = .ok 8 f' ∧ Models f' Sample.shape.addRoot)) :=
  ⟨_, _, rfl, C42_create_insert_failure Sample.models 42 (.lastChildOf 7) rfl⟩

end

end Treena
