import Verif.Proof.Consist
import Verif.Props.Insert
/-!
# Algebra of the edits on shapes: moving, detaching and killing

Used for the laws in `Props/Laws.lean`. -/
set_option autoImplicit false

namespace Treena
open Shape
variable {T : Type} {f : Forest T} {s : Shape}

theorem Shape.ext' {s s' : Shape} (h1 : s.size = s'.size) (h2 : ∀ x, s.alive x = s'.alive x)
    (h3 : ∀ x, s.parent x = s'.parent x) (h4 : ∀ x, s.kids x = s'.kids x) : s = s' := by
  obtain ⟨a, b, c, d⟩ := s
  obtain ⟨a', b', c', d'⟩ := s'
  simp only at h1 h2 h3 h4
  obtain rfl := h1
  obtain rfl : b = b' := funext h2
  obtain rfl : c = c' := funext h3
  obtain rfl : d = d' := funext h4
  rfl

theorem erase_mid' {A B : List Nat} {x : Nat} (h : (A ++ x :: B).Nodup) : (A ++ x :: B).erase x = A ++ B := by
  have hA : x ∉ A := by
    intro hx
    rw [List.nodup_append] at h
    exact h.2.2 x hx x (by simp) rfl
  rw [List.erase_append_right _ hA]; simp

theorem before_mid {A B : List Nat} {x : Nat} (h : x ∉ A) : before (A ++ x :: B) x = A := by
  unfold before
  rw [List.takeWhile_append_of_pos (by
    intro y hy; simp only [bne_iff_ne, ne_eq]; rintro rfl; exact h hy)]
  simp

theorem after_mid {A B : List Nat} {x : Nat} (h : x ∉ A) : after (A ++ x :: B) x = B := by
  unfold after
  rw [List.dropWhile_append_of_pos (by
    intro y hy; simp only [bne_iff_ne, ne_eq]; rintro rfl; exact h hy)]
  simp

/-- Moving a node to the place where it is changes nothing. -/
theorem Shape.Valid.move_at (hv : s.Valid) {x : Nat} {pl : Place} (hat : s.At x pl) : s.move x pl = s := by
  obtain ⟨P, A, B, hpp, hk, hc⟩ := hv.at_split hat
  have hnd := hv.kids_nodup P
  rw [hk] at hnd
  have hpx : s.parent x = some P := hv.kid_parent (by rw [hk]; simp)
  have he : (s.detach x).kids P = A ++ B := by
    show (s.kids P).erase x = _
    rw [hk, erase_mid' hnd]
  have hput : pl.put x (A ++ B) = A ++ x :: B := by
    have hnd' : (A ++ B).Nodup := by
      rw [List.nodup_append] at hnd ⊢
      refine ⟨hnd.1, (List.nodup_cons.1 hnd.2.1).2, fun a ha b hb => hnd.2.2 a ha b (by simp [hb])⟩
    cases pl with
    | firstChildOf a => obtain ⟨_, rfl⟩ := hc; simp [Place.put]
    | lastChildOf a => obtain ⟨_, rfl⟩ := hc; simp [Place.put]
    | before a =>
      obtain ⟨B', rfl⟩ := hc
      have ha : a ∉ A := by
        rw [List.nodup_append] at hnd'
        exact fun h => hnd'.2.2 a h a (by simp) rfl
      simp [Place.put, before_mid ha, after_mid ha]
    | after a =>
      obtain ⟨A', rfl⟩ := hc
      rw [List.append_assoc] at hnd' ⊢
      have ha : a ∉ A' := by
        rw [List.nodup_append] at hnd'
        exact fun h => hnd'.2.2 a h a (by simp) rfl
      simp [Place.put, before_mid ha, after_mid ha]
  unfold Shape.move
  rw [hpp]
  simp only
  rw [he, hput]
  refine Shape.ext' rfl (fun _ => rfl) (fun y => ?_) (fun q => ?_)
  · simp only [Shape.attach, Shape.detach, upd]
    split
    · rename_i e; rw [e, hpx]
    · rfl
  · simp only [Shape.attach, Shape.detach, upd]
    split
    · rename_i e; rw [e, hk]
    · rename_i e
      refine List.erase_of_not_mem fun h => e ?_
      have := hv.kid_parent h
      rw [hpx] at this; cases this; rfl

/-- The place is not "next to `x` itself". -/
def NotSelf (x : Nat) (pl : Place) : Prop := ∀ a, pl = .before a ∨ pl = .after a → x ≠ a

/-- The prospective parent does not depend on where `x` is. -/
theorem placeParent_of_parent {s s' : Shape} {x : Nat} {pl : Place} (hne : NotSelf x pl)
    (h : ∀ y, y ≠ x → s'.parent y = s.parent y) : s'.placeParent pl = s.placeParent pl := by
  cases pl with
  | firstChildOf a => rfl
  | lastChildOf a => rfl
  | before a => exact h a (fun e => hne a (.inl rfl) e.symm)
  | after a => exact h a (fun e => hne a (.inr rfl) e.symm)

/-- A move only depends on the forest with the moved node taken out. -/
theorem move_of_detach {s s' : Shape} {x P : Nat} {pl : Place} (hpp : s.placeParent pl = some P)
    (hpp' : s'.placeParent pl = some P) (h : s'.detach x = s.detach x) : s'.move x pl = s.move x pl := by
  unfold Shape.move
  rw [hpp, hpp']
  simp only
  rw [h]

theorem detach_detach (s : Shape) (x : Nat) (hv : s.Valid) : (s.detach x).detach x = s.detach x :=
  (hv.detach x).detach_root (by simp [Shape.detach, upd])

theorem detach_comm (s : Shape) (x y : Nat) : (s.detach x).detach y = (s.detach y).detach x := by
  refine Shape.ext' rfl (fun _ => rfl) (fun z => ?_) (fun q => ?_)
  · simp only [Shape.detach, upd]
    split <;> split <;> rfl
  · simp only [Shape.detach]
    exact List.erase_comm ..

/-- Taking out a moved node forgets the move. -/
theorem detach_move (hv : s.Valid) {x P : Nat} {pl : Place} (hpp : s.placeParent pl = some P)
    (hne : NotSelf x pl) (hv' : (s.move x pl).Valid) : (s.move x pl).detach x = s.detach x := by
  by_cases hat : s.At x pl
  · rw [hv.move_at hat]
  · obtain ⟨hpar, hkids, _⟩ := hv.move_facts hpp hne hat hv'
    refine Shape.ext' (move_size s x _) (fun y => by
      show (s.move x pl).alive y = s.alive y; rw [move_alive]) (fun y => ?_) (fun q => hkids q)
    simp only [Shape.detach, upd]
    split
    · rfl
    · rename_i h; rw [hpar, if_neg h]

theorem AncOrSelf.mono {par par' : Nat → Option Nat} {a x : Nat} (h : AncOrSelf par' a x)
    (hs : ∀ y, par' y = par y ∨ par' y = none) : AncOrSelf par a x := by
  induction h with
  | refl => exact .refl
  | step h1 _ ih =>
    rename_i y p _
    refine .step (p := p) ?_ ih
    rcases hs y with e | e
    · rw [← e]; exact h1
    · rw [h1] at e; cases e

/-- Everything a successful, not in-place `insert` does. -/
theorem insert_char (hm : Models f s) {x : Nat} {d : InsertAs} {f1 : Forest T} (hip : ¬ InPlace f x d)
    (h : Forest.insert x d f = .ok (.ok ()) f1) :
    Models f1 (s.move x d.place) ∧ f1.data = f.data ∧ s.alive x = true ∧ s.alive d.place.anchor = true ∧
      (d ≠ .previousSiblingOf x ∧ d ≠ .nextSiblingOf x) ∧
      ∃ P, s.placeParent d.place = some P ∧ ¬ AncOrSelf s.parent x P := by
  obtain ⟨hx, ha, hne, P, hpp, hcyc⟩ := insert_ok_inv hm h
  refine ⟨?_, ?_, hx, ha, hne, P, hpp, hcyc⟩
  all_goals
    by_cases hat : s.At x d.place
    · have : ∃ P, d = .firstChildOf P ∧ s.kids P = [x] := by
        by_contra hno; exact hip ((inPlace_iff hm).2 ⟨hat, hno⟩)
      obtain ⟨Q, rfl, hk⟩ := this
      rw [C08_insert_only_child_first_partial hm hk] at h
      cases h
      first
        | rfl
        | (rw [hm.valid.move_at hat]; exact hm)
    · obtain ⟨f', h1, h2, h3⟩ := forest_insert_models hm hx ha (place_ne hne) hpp hcyc hat
      rw [h] at h1; cases h1
      assumption

/-- When an `insert` succeeds, without being in-place. -/
theorem insert_succeeds (hm : Models f s) {x P : Nat} {d : InsertAs} (hip : ¬ InPlace f x d)
    (hx : s.alive x = true) (ha : s.alive d.place.anchor = true)
    (hne : d ≠ .previousSiblingOf x ∧ d ≠ .nextSiblingOf x)
    (hpp : s.placeParent d.place = some P) (hcyc : ¬ AncOrSelf s.parent x P) :
    ∃ f1, Forest.insert x d f = .ok (.ok ()) f1 := by
  by_cases hat : s.At x d.place
  · have : ∃ P, d = .firstChildOf P ∧ s.kids P = [x] := by
      by_contra hno; exact hip ((inPlace_iff hm).2 ⟨hat, hno⟩)
    obtain ⟨Q, rfl, hk⟩ := this
    exact ⟨f, C08_insert_only_child_first_partial hm hk⟩
  · obtain ⟨f', h1, _⟩ := forest_insert_models hm hx ha (place_ne hne) hpp hcyc hat
    exact ⟨f', h1⟩

/-- Below or at `P`, not below `x`: moving `x` does not put `P` below `x`. -/
theorem move_keeps_outside {s s' : Shape} {x : Nat} (h : ∀ y, y ≠ x → s'.parent y = s.parent y) {P : Nat}
    (hc : AncOrSelf s'.parent x P) : AncOrSelf s.parent x P := by
  induction hc with
  | refl => exact .refl
  | step h1 _ ih =>
    rename_i y p _
    by_cases e : y = x
    · subst e; exact .refl
    · exact .step (by rw [← h y e]; exact h1) ih

/-! ### Killing -/

theorem kill_kill (s : Shape) (D D' : Nat → Bool) :
    (s.kill D).kill D' = s.kill fun z => D z || D' z := by
  refine Shape.ext' rfl (fun z => ?_) (fun z => ?_) (fun q => ?_)
  · simp [Shape.kill, Bool.and_assoc]
  · simp only [Shape.kill]
    by_cases h : D z = true <;> by_cases h' : D' z = true <;> simp [h, h']
  · simp only [Shape.kill]
    cases hq : D q <;> cases hq' : D' q <;> simp [List.filter_filter, Bool.and_comm]

open Classical in
/-- `x` and everything below it. -/
noncomputable def below (s : Shape) (x : Nat) : Nat → Bool := fun z => decide (AncOrSelf s.parent x z)

theorem below_iff {s : Shape} {x z : Nat} : below s x z = true ↔ AncOrSelf s.parent x z := by
  simp [below]

/-- Removing `x`, live or dead. -/
theorem remove_char (hm : Models f s) (x : Nat) :
    ∃ f', Forest.remove x f = .ok () f' ∧ Models f' (s.kill (below s x)) ∧
      ∀ y, f'.getData y = if below s x y = true then none else f.getData y := by
  by_cases hx : s.alive x = true
  · obtain ⟨t, ht, rfl⟩ := Tree.exists_tree hm.valid hx
    have hD : (fun z => decide (z ∈ t.preorder)) = below s t.root := by
      funext z
      have := Tree.mem_preorder_iff hm.valid ht z
      have h2 := below_iff (s := s) (x := t.root) (z := z)
      by_cases h : z ∈ t.preorder
      · rw [h2.2 (this.1 h)]; simpa using h
      · have : below s t.root z = false := by
          cases e : below s t.root z with
          | false => rfl
          | true => exact absurd (this.2 (h2.1 e)) h
        rw [this]; simpa using h
    obtain ⟨f', h⟩ := removeHooked_spec (S := Unit) (fun s _ => .ok s) hm ht hx ()
    obtain ⟨σ, hf⟩ := feed_never (hook := fun (s : Unit) (_ : T) => Except.ok s) (fun σ _ => ⟨σ, rfl⟩)
      (t.postorder.filterMap f.getData) ()
    rw [hf] at h
    refine ⟨f', ?_, by rw [← hD]; exact h.2.1, fun y => ?_⟩
    · unfold Forest.remove; rw [h.1]
    · rw [h.2.2, ← hD]; simp
  · have hx : s.alive x = false := by simpa using hx
    have honly : ∀ z, AncOrSelf s.parent x z ↔ z = x := by
      intro z
      constructor
      · intro h
        induction h with
        | refl => rfl
        | step h1 _ ih =>
          subst ih
          have := (hm.valid.parent_alive _ _ h1).2
          rw [hx] at this; cases this
      · rintro rfl; exact .refl
    have hB : ∀ z, below s x z = decide (z = x) := by
      intro z
      by_cases h : z = x
      · rw [below_iff.2 ((honly z).2 h)]; simp [h]
      · cases e : below s x z with
        | false => simp [h]
        | true => exact absurd ((honly z).1 (below_iff.1 e)) h
    have hk : s.kill (below s x) = s := by
      refine Shape.ext' rfl (fun z => ?_) (fun z => ?_) (fun q => ?_)
      · simp only [Shape.kill, hB]
        by_cases h : z = x
        · subst h; simp [hx]
        · simp [h]
      · simp only [Shape.kill, hB]
        by_cases h : z = x
        · subst h; simp [hm.valid.dead_parent hx]
        · simp [h]
      · simp only [Shape.kill, hB]
        by_cases h : q = x
        · subst h; simp [hm.valid.dead_kids hx]
        · simp only [h, decide_false, Bool.false_eq_true, if_false]
          refine List.filter_eq_self.2 fun c hc => ?_
          have := hm.valid.kid_alive hc
          have : c ≠ x := by rintro rfl; rw [hx] at this; cases this
          simp [this]
    refine ⟨f, ?_, by rw [hk]; exact hm, fun y => ?_⟩
    · have := removeWith_dead (S := Unit) (Forest.closeForce fun s _ => .ok s) hm hx ()
      unfold Forest.remove Forest.removeHooked; rw [this]
    · rw [hB]
      split
      · rename_i h
        have h : y = x := by simpa using h
        subst h
        have := hm.dataAlive y
        rw [hx] at this
        exact Option.isNone_iff_eq_none.1 (by simpa using this)
      · rfl

/-- Which nodes are gone after two removals. -/
theorem below_kill (s : Shape) (x y z : Nat) :
    (below s x z || below (s.kill (below s x)) y z) = (below s x z || below s y z) := by
  rw [Bool.eq_iff_iff]
  simp only [Bool.or_eq_true, below_iff]
  constructor
  · rintro (h | h)
    · exact .inl h
    · refine .inr (h.mono fun w => ?_)
      simp only [Shape.kill]
      split
      · exact .inr rfl
      · exact .inl rfl
  · rintro (h | h)
    · exact .inl h
    · by_cases hz : AncOrSelf s.parent x z
      · exact .inl hz
      · refine .inr ?_
        induction h with
        | refl => exact .refl
        | step h1 _ ih =>
          rename_i w p _
          have hp : ¬ AncOrSelf s.parent x p := fun h => hz (.step h1 h)
          refine .step (p := p) ?_ (ih hp)
          have : below s x w = false := by
            cases e : below s x w with
            | false => rfl
            | true => exact absurd (below_iff.1 e) hz
          simp [Shape.kill, this, h1]

/-- The data and shape after two removals. -/
theorem remove_remove (hm : Models f s) (x y : Nat) :
    ∃ fx g, Forest.remove x f = .ok () fx ∧ Forest.remove y fx = .ok () g ∧
      Models g (s.kill fun z => below s x z || below s y z) ∧
      ∀ z, g.getData z = if (below s x z || below s y z) = true then none else f.getData z := by
  obtain ⟨fx, h1, h2, h3⟩ := remove_char hm x
  obtain ⟨g, h4, h5, h6⟩ := remove_char h2 y
  refine ⟨fx, g, h1, h4, ?_, fun z => ?_⟩
  · rw [kill_kill] at h5
    have : (fun z => below s x z || below (s.kill (below s x)) y z) = fun z => below s x z || below s y z :=
      funext (below_kill s x y)
    rw [this] at h5; exact h5
  · rw [h6, h3, ← below_kill]
    cases below s x z <;> cases below (s.kill (below s x)) y z <;> simp

/-- The removal functions only depend on the forest with the removed node taken out. -/
theorem removeWith_congr {S : Type} (close : Nat → M (Forest T × S) Unit) {f f' : Forest T} {s s' : Shape}
    (hm : Models f s) (hm' : Models f' s') {x : Nat} (hx : s.alive x = true) (hx' : s'.alive x = true)
    (hd : s'.detach x = s.detach x) (hdata : f'.data = f.data) (σ : S) :
    Forest.removeWith close x (f', σ) = Forest.removeWith close x (f, σ) := by
  obtain ⟨f0, h1, h2, h3⟩ := removeWith_run close hm hx σ
  obtain ⟨f0', h1', h2', h3'⟩ := removeWith_run close hm' hx' σ
  rw [hd] at h1'
  have : f0' = f0 := forest_ext h1' h1 (fun y => by
    unfold Forest.getData; rw [h2, h2', hdata])
  rw [h3, h3', this]

end Treena
