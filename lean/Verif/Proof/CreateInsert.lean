import Verif.Proof.Clone
import Verif.Proof.Dead
/-! All outcomes of `create_insert`, `insert`, `detach`, `detach_single` on a consistent forest. -/
namespace Treena
open Hier Shape
variable {T : Type} {f : Forest T} {s : Shape}

theorem toAnchor_eq (d : InsertAs) : d.toAnchor = d.place.anchor := by cases d <;> rfl

theorem createInsert_invalid (hm : Models f s) {cap : Nat} (d : T) {dest : InsertAs}
    (ha : s.size ≤ dest.place.anchor) :
    Forest.createInsert cap d dest f =
      .fail (.panic "[precondition] the anchor must be valid for this forest") f := by
  have hval : f.hier.isValid dest.toAnchor = false := by
    unfold isValid; rw [toAnchor_eq, hm.agrees.1]; simpa using ha
  unfold Forest.createInsert Forest.createInsertMomo
  simp [M.read, hval]

theorem createInsert_full' (hm : Models f s) {cap : Nat} (hcap : cap ≤ s.size) (d : T) {dest : InsertAs}
    (ha : dest.place.anchor < s.size) : Forest.createInsert cap d dest f = .fail overflow f := by
  have hval : f.hier.isValid dest.toAnchor = true := by
    unfold isValid; rw [toAnchor_eq, hm.agrees.1]; simpa using ha
  unfold Forest.createInsert Forest.createInsertMomo
  simp [M.read, hval, onHier_fail (hier_createRoot_full hm.agrees hcap), overflow]

theorem createInsert_orphan (hm : Models f s) {cap : Nat} (hcap : s.size < cap) (d : T) {dest : InsertAs}
    (ha : dest.place.anchor < s.size)
    (hbad : s.alive dest.place.anchor = false ∨ s.placeParent dest.place = none) :
    ∃ msg f', Forest.createInsert cap d dest f = .fail (.panic msg) f' ∧ Models f' s.addRoot ∧
      ∀ x, f'.getData x = if x = s.size then some d else f.getData x := by
  obtain ⟨h', hr, hag⟩ := hier_createRoot_agrees hm.agrees hm.valid hcap
  have hm1 := hm.pushed hag d
  have hval : f.hier.isValid dest.toAnchor = true := by
    unfold isValid; rw [toAnchor_eq, hm.agrees.1]; simpa using ha
  have hne : ∀ a, dest.place = .before a ∨ dest.place = .after a → s.size ≠ a := by
    intro a h e
    have : dest.place.anchor = a := by rcases h with h | h <;> rw [h] <;> rfl
    omega
  have hins : ∃ msg, Hier.insert s.size dest h' = .fail (.panic msg) h' := by
    by_cases hal : s.alive dest.place.anchor = true
    · have hpp : s.addRoot.placeParent dest.place = none := hbad.resolve_left (by rw [hal]; simp)
      have := insert_run (h := h') hag hm.valid.addRoot (x := s.size) (d := dest) s.addRoot_alive_self
        (addRoot_alive_of hal) hne
      rw [hpp] at this
      exact ⟨_, this⟩
    · refine insert_dead (.inr ?_) ⟨?_, ?_⟩
      · rw [toAnchor_eq, hag.live_iff hm.valid.addRoot]
        simp only [Shape.addRoot, upd]
        rw [if_neg (by omega)]; exact hal
      · rintro rfl; exact hne s.size (.inl rfl) rfl
      · rintro rfl; exact hne s.size (.inr rfl) rfl
  obtain ⟨msg, hins⟩ := hins
  refine ⟨msg, { hier := h', data := f.data ++ [some d] }, ?_, hm1, ?_⟩
  · have hon : Forest.onHier (Hier.insert s.size dest)
        ({ hier := h', data := f.data ++ [some d] } : Forest T) =
        .fail (.panic msg) { hier := h', data := f.data ++ [some d] } := onHier_fail hins
    unfold Forest.createInsert Forest.createInsertMomo
    simp [M.read, hval, onHier_ok hr, Forest.pushData, hon]
  · intro x; rw [getData_pushed, hm.dataLen]

theorem not_live_of_dead (hm : Models f s) {x : Nat} (hx : s.alive x = false) : ¬ f.hier.live x := by
  rw [hm.agrees.live_iff hm.valid, hx]; simp

theorem forest_insert_dead (hm : Models f s) {x : Nat} {d : InsertAs}
    (hd : s.alive x = false ∨ s.alive d.place.anchor = false)
    (hne : d ≠ .previousSiblingOf x ∧ d ≠ .nextSiblingOf x) :
    ∃ msg, Forest.insert x d f = .fail (.panic msg) f := by
  have hd' : ¬ f.hier.live x ∨ ¬ f.hier.live d.toAnchor := by
    rw [toAnchor_eq]; exact hd.imp (not_live_of_dead hm) (not_live_of_dead hm)
  obtain ⟨msg, h⟩ := insert_dead hd' hne
  exact ⟨msg, onHier_fail h⟩

theorem forest_insert_unorderable (f : Forest T) {x : Nat} {d : InsertAs}
    (hd : d = .previousSiblingOf x ∨ d = .nextSiblingOf x) :
    Forest.insert x d f = .ok (.error .unorderableSiblings) f := by
  refine onHier_ok (insert_unorderable ?_)
  rcases hd with rfl | rfl
  · exact .inl rfl
  · exact .inr rfl

theorem place_ne {x : Nat} {d : InsertAs} (hne : d ≠ .previousSiblingOf x ∧ d ≠ .nextSiblingOf x) :
    ∀ a, d.place = .before a ∨ d.place = .after a → x ≠ a := by
  rintro a h rfl
  cases d <;> simp [InsertAs.place] at h hne <;> exact hne h

theorem forest_insert_rootSibling (hm : Models f s) {x : Nat} {d : InsertAs} (hx : s.alive x = true)
    (ha : s.alive d.place.anchor = true) (hne : d ≠ .previousSiblingOf x ∧ d ≠ .nextSiblingOf x)
    (hpp : s.placeParent d.place = none) :
    Forest.insert x d f =
      .fail (.panic "[precondition] the parent must be alive to have siblings") f := by
  have := insert_run hm.agrees hm.valid hx ha (place_ne hne)
  rw [hpp] at this
  exact onHier_fail this

theorem forest_insert_loop (hm : Models f s) {x P : Nat} {d : InsertAs} (hx : s.alive x = true)
    (ha : s.alive d.place.anchor = true) (hne : d ≠ .previousSiblingOf x ∧ d ≠ .nextSiblingOf x)
    (hpp : s.placeParent d.place = some P) (hcyc : AncOrSelf s.parent x P) :
    Forest.insert x d f = .ok (.error .ancestorDescendantLoop) f :=
  onHier_ok (insert_loop hm.agrees hm.valid hx ha (place_ne hne) hpp hcyc)

theorem forest_detach_dead (hm : Models f s) {x : Nat} (hx : s.alive x = false) :
    ∃ msg, Forest.detach x f = .fail (.panic msg) f := by
  obtain ⟨m, h⟩ := detach_dead (not_live_of_dead hm hx); exact ⟨m, onHier_fail h⟩

theorem forest_detachSingle_dead (hm : Models f s) {x : Nat} (hx : s.alive x = false) :
    ∃ msg, Forest.detachSingle x f = .fail (.panic msg) f := by
  obtain ⟨m, h⟩ := detachSingle_dead (not_live_of_dead hm hx); exact ⟨m, onHier_fail h⟩

theorem forest_detachSingle_child (hm : Models f s) {x p : Nat} (hp : s.parent x = some p) :
    ∃ f', Forest.detachSingle x f = .ok (.ok ()) f' ∧ Models f' (s.splice x p) ∧ f'.data = f.data := by
  obtain ⟨h', h1, h2, h3⟩ := detachSingle_child hm.agrees hm.valid hp
  exact ⟨_, onHier_ok h1, hm.relink h3 h2 rfl rfl, rfl⟩

theorem forest_detachSingle_root_nil (hm : Models f s) {x : Nat} (hx : s.alive x = true)
    (hp : s.parent x = none) (hC : s.kids x = []) : Forest.detachSingle x f = .ok (.ok ()) f :=
  onHier_ok (detachSingle_root_nil hm.agrees hm.valid hx hp hC)

theorem forest_detachSingle_root_one (hm : Models f s) {x c : Nat} (hx : s.alive x = true)
    (hp : s.parent x = none) (hC : s.kids x = [c]) :
    ∃ f', Forest.detachSingle x f = .ok (.ok ()) f' ∧ Models f' (s.detach c) ∧ f'.data = f.data := by
  obtain ⟨h', h1, h2⟩ := detachSingle_root_one hm.agrees hm.valid hx hp hC
  exact ⟨_, onHier_ok h1, hm.relink (hm.valid.detach c) h2 rfl rfl, rfl⟩

theorem forest_detachSingle_root_many (hm : Models f s) {x : Nat} (hx : s.alive x = true)
    (hp : s.parent x = none) (hC : 2 ≤ (s.kids x).length) :
    Forest.detachSingle x f = .ok (.error .siblingsWithoutParent) f :=
  onHier_ok (detachSingle_root_many hm.agrees hm.valid hx hp hC)

/-! ### Every outcome is consistent -/

theorem createRoot_consistent (cap : Nat) (d : T) : ∀ f : Forest T, Consistent f →
    Consistent (Forest.createRoot cap d f).state := by
  rintro f ⟨s, hm⟩
  by_cases hcap : s.size < cap
  · obtain ⟨f', h, h1, _⟩ := createRoot_models hm hcap d
    rw [h]; exact ⟨_, h1⟩
  · rw [createRoot_full hm (by omega)]; exact ⟨s, hm⟩

theorem createInsert_consistent (cap : Nat) (d : T) (dest : InsertAs) : ∀ f : Forest T, Consistent f →
    Consistent (Forest.createInsert cap d dest f).state := by
  rintro f ⟨s, hm⟩
  by_cases ha : dest.place.anchor < s.size
  · by_cases hcap : s.size < cap
    · by_cases hbad : s.alive dest.place.anchor = false ∨ s.placeParent dest.place = none
      · obtain ⟨m, f', h, h1, _⟩ := createInsert_orphan hm hcap d ha hbad
        rw [h]; exact ⟨_, h1⟩
      · have hal : s.alive dest.place.anchor = true := by
          cases h : s.alive dest.place.anchor
          · exact absurd (.inl h) hbad
          · rfl
        cases hpp : s.placeParent dest.place with
        | none => exact absurd (.inr hpp) hbad
        | some P =>
          obtain ⟨f', h, h1, _⟩ := createInsert_models hm hcap d hal hpp
          rw [h]; exact ⟨_, h1⟩
    · rw [createInsert_full' hm (by omega) d ha]; exact ⟨s, hm⟩
  · rw [createInsert_invalid hm d (by omega)]; exact ⟨s, hm⟩

/-- `insert` of a node that is not already at the requested place. -/
theorem insert_consistent {x : Nat} {d : InsertAs} (hm : Models f s) (hat : ¬ s.At x d.place) :
    Consistent (Forest.insert x d f).state := by
  by_cases hne : d ≠ .previousSiblingOf x ∧ d ≠ .nextSiblingOf x
  · by_cases hx : s.alive x = true ∧ s.alive d.place.anchor = true
    · cases hpp : s.placeParent d.place with
      | none => rw [forest_insert_rootSibling hm hx.1 hx.2 hne hpp]; exact ⟨s, hm⟩
      | some P =>
        by_cases hcyc : AncOrSelf s.parent x P
        · rw [forest_insert_loop hm hx.1 hx.2 hne hpp hcyc]; exact ⟨s, hm⟩
        · obtain ⟨f', h, h1, _⟩ := forest_insert_models hm hx.1 hx.2 (place_ne hne) hpp hcyc hat
          rw [h]; exact ⟨_, h1⟩
    · have hd : s.alive x = false ∨ s.alive d.place.anchor = false := by
        cases h1 : s.alive x
        · exact .inl rfl
        · cases h2 : s.alive d.place.anchor
          · exact .inr rfl
          · exact absurd ⟨h1, h2⟩ hx
      obtain ⟨m, h⟩ := forest_insert_dead hm hd hne
      rw [h]; exact ⟨s, hm⟩
  · have hd : d = .previousSiblingOf x ∨ d = .nextSiblingOf x := by
      by_cases h1 : d = .previousSiblingOf x
      · exact .inl h1
      · by_cases h2 : d = .nextSiblingOf x
        · exact .inr h2
        · exact absurd ⟨h1, h2⟩ hne
    rw [forest_insert_unorderable f hd]; exact ⟨s, hm⟩

theorem detach_consistent (x : Nat) : ∀ f : Forest T, Consistent f →
    Consistent (Forest.detach x f).state := by
  rintro f ⟨s, hm⟩
  cases hx : s.alive x
  · obtain ⟨m, h⟩ := forest_detach_dead hm hx; rw [h]; exact ⟨s, hm⟩
  · obtain ⟨f', h, h1, _⟩ := forest_detach_models hm hx; rw [h]; exact ⟨_, h1⟩

theorem detachSingle_consistent (x : Nat) : ∀ f : Forest T, Consistent f →
    Consistent (Forest.detachSingle x f).state := by
  rintro f ⟨s, hm⟩
  cases hx : s.alive x
  · obtain ⟨m, h⟩ := forest_detachSingle_dead hm hx; rw [h]; exact ⟨s, hm⟩
  · cases hp : s.parent x with
    | some p => obtain ⟨f', h, h1, _⟩ := forest_detachSingle_child hm hp; rw [h]; exact ⟨_, h1⟩
    | none =>
      cases hk : s.kids x with
      | nil => rw [forest_detachSingle_root_nil hm hx hp hk]; exact ⟨s, hm⟩
      | cons c l =>
        cases l with
        | nil => obtain ⟨f', h, h1, _⟩ := forest_detachSingle_root_one hm hx hp hk; rw [h]; exact ⟨_, h1⟩
        | cons c' l =>
          rw [forest_detachSingle_root_many hm hx hp (by rw [hk]; simp)]; exact ⟨s, hm⟩

theorem setData_consistent (x : Nat) (v : T) : ∀ f : Forest T, Consistent f →
    Consistent (Forest.setData x v f).state := by
  rintro f ⟨s, hm⟩
  cases hx : s.alive x
  · rw [setData_dead hm hx]; exact ⟨s, hm⟩
  · obtain ⟨f', h, h1, _⟩ := setData_models hm hx v; rw [h]; exact ⟨_, h1⟩

theorem removeHookedPanicSafe_consistent {S : Type} (hook : Forest.Hook S T) (σ : S) (x : Nat) :
    ∀ f : Forest T, Consistent f →
    Consistent (Forest.removeHookedPanicSafe hook x (f, σ)).state.1 := by
  rintro f ⟨s, hm⟩
  cases hx : s.alive x
  · rw [Forest.removeHookedPanicSafe, removeWith_dead _ hm hx]; exact ⟨s, hm⟩
  · obtain ⟨t, ht, rfl⟩ := Tree.exists_tree hm.valid hx
    obtain ⟨f', h⟩ := removeHookedPanicSafe_spec hook hm ht hx σ
    split at h
    · rw [h.1]; exact ⟨_, h.2.1⟩
    · rw [h.1]; exact ⟨_, h.2.1⟩

theorem removeHooked_consistent {S : Type} (hook : Forest.Hook S T) (σ : S) (x : Nat)
    (hook_ok : ∀ σ d, ∃ σ', hook σ d = .ok σ') :
    ∀ f : Forest T, Consistent f →
    Consistent (Forest.removeHooked hook x (f, σ)).state.1 := by
  rintro f ⟨s, hm⟩
  cases hx : s.alive x
  · rw [Forest.removeHooked, removeWith_dead _ hm hx]; exact ⟨s, hm⟩
  · obtain ⟨t, ht, rfl⟩ := Tree.exists_tree hm.valid hx
    obtain ⟨f', h⟩ := removeHooked_spec hook hm ht hx σ
    have hf : ∀ (l : List T) σ, (feed hook σ l).2 = none := by
      intro l
      induction l with
      | nil => intro σ; rfl
      | cons a l ih =>
        intro σ
        obtain ⟨σ', h'⟩ := hook_ok σ a
        simp [feed, h', ih]
    split at h
    · rw [h.1]; exact ⟨_, h.2.1⟩
    · rename_i heq
      have := hf (t.postorder.filterMap f.getData) σ
      rw [heq] at this; simp at this

theorem remove_consistent (x : Nat) : ∀ f : Forest T, Consistent f →
    Consistent (Forest.remove x f).state := by
  intro f hf
  have := removeHooked_consistent (T := T) (S := Unit) (fun s _ => .ok s) () x (fun σ _ => ⟨σ, rfl⟩) f hf
  unfold Forest.remove
  cases h : Forest.removeHooked (S := Unit) (fun s (_ : T) => .ok s) x (f, ()) <;> rw [h] at this <;> exact this

end Treena
