import Verif.Proof.Move
import Verif.Proof.History
import Verif.Props.Sample
import Verif.Props.SampleRun
/-!
# Properties of creation (C02, C12), of liveness (C03, C04) and of precondition violations (C36)
-/
set_option autoImplicit false

namespace Treena
open Shape
variable {T : Type} {f : Forest T} {s : Shape}

/-- **C02**.  `create_root(d)` on a consistent forest with `s.size` nodes ever created: below the
capacity it returns the ID `s.size`, which was not live; the new node is live, holds `d`, has no parent,
no siblings, no children; liveness, data, parent and child list of every other node are unchanged.  At
the capacity it panics and the forest is unchanged. -/
theorem C02_create_root (hm : Models f s) (cap : Nat) (d : T) :
    (s.size < cap → ∃ f' s', Forest.createRoot cap d f = .ok s.size f' ∧ f.isAlive s.size = false ∧
      Models f' s' ∧ Describes f' s' ∧ s'.size = s.size + 1 ∧
      (∀ x, s'.alive x = if x = s.size then true else s.alive x) ∧
      (∀ x, s'.parent x = if x = s.size then none else s.parent x) ∧
      (∀ x, s'.kids x = if x = s.size then [] else s.kids x) ∧
      (∀ x, f'.getData x = if x = s.size then some d else f.getData x)) ∧
    (cap ≤ s.size → Forest.createRoot cap d f = .fail overflow f) := by
  refine ⟨fun hc => ?_, fun hc => createRoot_full hm hc d⟩
  obtain ⟨f', h1, h2, h3⟩ := createRoot_models hm hc d
  have hv := hm.valid
  refine ⟨f', _, h1, ?_, h2, h2.describes, rfl, fun x => rfl, fun x => ?_, fun x => ?_, h3⟩
  · rw [hm.isAlive]; exact hv.dead_size
  · split
    · rename_i e; subst e; exact hv.dead_parent hv.dead_size
    · rfl
  · split
    · rename_i e; subst e; exact hv.dead_kids hv.dead_size
    · rfl

/-- C02 without assuming consistent links: in every coherent state the record and datum of the new node
are appended and everything stored before stays. -/
theorem C02_create_root_any_state (hc : Coherent f) (cap : Nat) (d : T) :
    (f.issued < cap → Forest.createRoot cap d f = .ok f.issued
      (Forest.mk (Hier.mk (f.hier.nbrs ++ [Neighbors.mk none (some f.issued) none none])) (f.data ++ [some d]))) ∧
    (cap ≤ f.issued → Forest.createRoot cap d f = .fail overflow f) := by
  have hl : f.hier.nbrs.length = f.data.length := hc.len.symm
  refine ⟨fun h => ?_, fun h => ?_⟩
  · simp only [Forest.issued] at h ⊢
    simp only [Forest.createRoot, M.run_bind, Forest.onHier, M.zoom, Hier.createRoot, Hier.fromUsize, hl, h, if_true,
      M.read, Forest.pushData, Neighbors.newRoot]
    simp
  · simp only [Forest.issued] at h
    have h' : ¬ f.data.length < cap := by omega
    simp only [Forest.createRoot, M.run_bind, Forest.onHier, M.zoom, Hier.createRoot, Hier.fromUsize, hl, h', if_false]
    rfl

example : ∃ f', Forest.createRoot 100 18 Sample.built = .ok 8 f' := by
  obtain ⟨f', _, h, _⟩ := (C02_create_root Sample.models 100 18).1 (by decide)
  exact ⟨f', h⟩
example : Forest.createRoot 8 18 Sample.built = .fail overflow Sample.built :=
  (C02_create_root Sample.models 8 18).2 (by decide)

/-- **C12**.  `create_insert(d, dest)` with a live anchor whose prospective parent `P` exists (always for
child destinations; for sibling destinations the anchor must have a parent), below the capacity: returns
the fresh ID `s.size`; that node is a leaf holding `d` at `dest`, its parent is `P`; no other node changes
its parent, its datum, its liveness or (apart from the new node being put in) its child list.  In
particular the call does not fail. -/
theorem C12_create_insert (hm : Models f s) {cap : Nat} (hcap : s.size < cap) (d : T) {dest : InsertAs}
    {P : Nat} (ha : s.alive dest.place.anchor = true) (hpp : s.placeParent dest.place = some P) :
    ∃ f' s', Forest.createInsert cap d dest f = .ok s.size f' ∧ f.isAlive s.size = false ∧
      Models f' s' ∧ Describes f' s' ∧ s'.size = s.size + 1 ∧
      s'.At s.size dest.place ∧ s'.kids s.size = [] ∧
      (∀ x, s'.alive x = if x = s.size then true else s.alive x) ∧
      (∀ x, s'.parent x = if x = s.size then some P else s.parent x) ∧
      (∀ x, (s'.kids x).erase s.size = s.kids x) ∧
      (∀ x, x ≠ P → s'.kids x = s.kids x) ∧
      (∀ x, f'.getData x = if x = s.size then some d else f.getData x) := by
  obtain ⟨f', h1, h2, h3⟩ := createInsert_models hm hcap d ha hpp
  have hv := hm.valid
  have hne : ∀ a, dest.place = .before a ∨ dest.place = .after a → s.size ≠ a := by
    intro a hd e
    have : s.alive a = true := by rcases hd with hd | hd <;> rw [hd] at ha <;> exact ha
    have := hv.alive_lt a this; omega
  have hpp' : s.addRoot.placeParent dest.place = some P := hpp
  obtain ⟨g1, g2, g3⟩ := hv.addRoot.move_facts hpp' hne (not_at_fresh hv ha) h2.valid
  have hPne : P ≠ s.size := by
    intro e; subst e
    have : s.alive s.size = true := by
      cases dest with
      | firstChildOf a => cases hpp; exact ha
      | lastChildOf a => cases hpp; exact ha
      | previousSiblingOf a => exact (hv.parent_alive _ _ hpp).2
      | nextSiblingOf a => exact (hv.parent_alive _ _ hpp).2
    rw [hv.dead_size] at this; cases this
  have hno : ∀ x, s.size ∉ s.kids x := by
    intro x hx; have := hv.kid_alive hx; rw [hv.dead_size] at this; cases this
  have hkk : ∀ x, x ≠ P → (s.addRoot.move s.size dest.place).kids x = s.kids x := by
    intro x hx
    unfold Shape.move; rw [hpp']
    simp only [Shape.attach, upd, hx, if_false, Shape.detach]
    exact List.erase_of_not_mem (hno x)
  refine ⟨f', _, h1, ?_, h2, h2.describes, by rw [move_size]; rfl, g3, ?_, ?_, ?_, ?_, hkk, h3⟩
  · rw [hm.isAlive]; exact hv.dead_size
  · rw [hkk _ hPne.symm]; exact hv.dead_kids hv.dead_size
  · intro x; rw [move_alive]; rfl
  · intro x; exact g1 x
  · intro x; rw [g2]; exact List.erase_of_not_mem (hno x)

/-- e.g. between the children 1 and 2 of the sample -/
example : ∃ f', Forest.createInsert 100 18 (.nextSiblingOf 1) Sample.built = .ok 8 f' := by
  obtain ⟨f', _, h, _⟩ := C12_create_insert Sample.models (cap := 100) (by decide) 18 (dest := .nextSiblingOf 1)
    (P := 0) rfl rfl
  exact ⟨f', h⟩

/-- C12, the remaining cases: an unknown anchor or exhausted IDs panic without effect; a dead anchor, or
a sibling position next to a root, panics *after* the new node was created: it stays as an isolated root
(the forest is consistent). -/
theorem C12_create_insert_failures (hm : Models f s) (cap : Nat) (d : T) (dest : InsertAs) :
    (s.size ≤ dest.place.anchor → Forest.createInsert cap d dest f =
      .fail (.panic "[precondition] the anchor must be valid for this forest") f) ∧
    (dest.place.anchor < s.size → cap ≤ s.size → Forest.createInsert cap d dest f = .fail overflow f) ∧
    (dest.place.anchor < s.size → s.size < cap →
      s.alive dest.place.anchor = false ∨ s.placeParent dest.place = none →
      ∃ msg f', Forest.createInsert cap d dest f = .fail (.panic msg) f' ∧ Models f' s.addRoot ∧
        Describes f' s.addRoot ∧ ∀ x, f'.getData x = if x = s.size then some d else f.getData x) := by
  refine ⟨createInsert_invalid hm d, fun h hc => createInsert_full' hm hc d h, fun h hc hb => ?_⟩
  obtain ⟨msg, f', h1, h2, h3⟩ := createInsert_orphan hm hc d h hb
  exact ⟨msg, f', h1, h2, h2.describes, h3⟩

/-- **C36**.  On a consistent forest: `insert` with a dead or unknown node or anchor (and not asking for a
sibling of the node itself, which is reported as `Err(UnorderableSiblings)`), `detach` and `detach_single`
of a dead or unknown node panic, and so does `create_insert` with an out-of-range anchor; the forest is
unchanged in all cases. -/
theorem C36_precondition_panics (hm : Models f s) (x : Nat) :
    (∀ d : InsertAs, s.alive x = false ∨ s.alive d.place.anchor = false →
      (if d = .previousSiblingOf x ∨ d = .nextSiblingOf x
       then Forest.insert x d f = .ok (.error .unorderableSiblings) f
       else ∃ msg, Forest.insert x d f = .fail (.panic msg) f)) ∧
    (s.alive x = false → ∃ msg, Forest.detach x f = .fail (.panic msg) f) ∧
    (s.alive x = false → ∃ msg, Forest.detachSingle x f = .fail (.panic msg) f) ∧
    (∀ cap d (dest : InsertAs), s.size ≤ dest.place.anchor →
      ∃ msg, Forest.createInsert cap d dest f = .fail (.panic msg) f) := by
  refine ⟨fun d hd => ?_, forest_detach_dead hm, forest_detachSingle_dead hm, fun cap d dest h =>
    ⟨_, createInsert_invalid hm d h⟩⟩
  split
  · rename_i h; exact forest_insert_unorderable f h
  · rename_i h; exact forest_insert_dead hm hd (not_or.1 h)

example : ∃ msg, Forest.insert 7 (.lastChildOf 0) Sample.built = .fail (.panic msg) Sample.built := by
  have := (C36_precondition_panics Sample.models 7).1 (.lastChildOf 0) (.inl rfl)
  rwa [if_neg (by simp)] at this

/-! ### The hypotheses can be met

Each example applies the theorem named in its comment to a concrete forest. -/

section
/-- `C02_create_root_any_state`: the sample forest, and a destroyed one. -/
example := C02_create_root_any_state Sample.coherent 100 42

/-- `C02_create_root_any_state`: the sample forest, and a destroyed one (continued). -/
example := C02_create_root_any_state Sample.reachable_spoilt.coherent 100 42

/-- `C12_create_insert_failures`: below the removed node 7. -/
example := C12_create_insert_failures Sample.models 100 42 (.lastChildOf 7)

end

end Treena
