import Verif.Proof.Move
import Verif.Proof.Remove
import Verif.Props.Sample
import Verif.Props.SampleRun
/-!
# Properties of `detach` (C13) and `detach_single` (C14)
-/
set_option autoImplicit false

namespace Treena
open Shape
variable {T : Type} {f : Forest T} {s : Shape}

/-- **C13**.  `detach(x)` of a live node succeeds; `x` becomes a root; every other node keeps its parent;
`x` disappears from its parent's child list, all other child lists and the order among the siblings stay
(so the subtree of `x` stays); data stay. -/
theorem C13_detach (hm : Models f s) {x : Nat} (hx : s.alive x = true) :
    ∃ f' s', Forest.detach x f = .ok () f' ∧ Models f' s' ∧ Describes f' s' ∧ f'.data = f.data ∧
      s'.size = s.size ∧ (∀ y, s'.alive y = s.alive y) ∧
      (∀ y, s'.parent y = if y = x then none else s.parent y) ∧
      (∀ q, s'.kids q = (s.kids q).filter (· ≠ x)) ∧
      (∀ t : Tree Nat, Tree.IsTree s.kids t → t.root = x → Tree.IsTree s'.kids t) := by
  obtain ⟨f', h1, h2, h3⟩ := forest_detach_models hm hx
  refine ⟨f', _, h1, h2, h2.describes, h3, rfl, fun _ => rfl, fun y => rfl, fun q => ?_, ?_⟩
  · show (s.kids q).erase x = _
    rw [(hm.valid.kids_nodup q).erase_eq_filter]
    congr 1; funext y; simp [bne, BEq.beq]
  · rintro t ht rfl; exact Tree.isTree_detach hm.valid ht

/-- C13: detaching a root changes nothing at all; so detaching twice is detaching once. -/
theorem C13_detach_root (hm : Models f s) {x : Nat} (hx : s.alive x = true) :
    (s.parent x = none → Forest.detach x f = .ok () f) ∧
    (∃ f', Forest.detach x f = .ok () f' ∧ Forest.detach x f' = .ok () f') := by
  have key : ∀ {f : Forest T} {s : Shape}, Models f s → s.alive x = true → s.parent x = none →
      Forest.detach x f = .ok () f := by
    intro f s hm hx hp
    obtain ⟨f', h1, h2, h3⟩ := forest_detach_models hm hx
    have he : s.detach x = s := by
      have h4 : upd s.parent x none = s.parent := by
        funext y; simp only [upd]; split
        · rename_i e; rw [e, hp]
        · rfl
      have h5 : (fun q => (s.kids q).erase x) = s.kids := by
        funext q; refine List.erase_of_not_mem fun h => ?_
        rw [hm.valid.mem_kids, hp] at h; cases h
      unfold Shape.detach; rw [h4, h5]
    rw [he] at h2
    have : f' = f := forest_ext h2 hm (fun y => by rw [Forest.getData, Forest.getData, h3])
    rw [h1, this]
  refine ⟨key hm hx, ?_⟩
  obtain ⟨f', h1, h2, _⟩ := forest_detach_models hm hx
  exact ⟨f', h1, key h2 hx (by simp [Shape.detach, upd])⟩

example : ∃ f', Forest.detach 2 Sample.built = .ok () f' ∧ f'.parentId 2 = .ok none ∧
    f'.nextSiblingId 1 = .ok (some 3) := by
  obtain ⟨f', s', h1, hm, hd, _, _, ha, hp, hk, _⟩ := C13_detach Sample.models (x := 2) rfl
  have hp1 : s'.parent 1 = some 0 := hp 1
  have hk0 : s'.kids 0 = [1, 3] := by rw [hk]; decide
  refine ⟨f', h1, ?_, ?_⟩
  · rw [hd.parent 2 (ha 2), hp]; rfl
  · rw [hd.next 1 (ha 1)]
    simp [Shape.next, Shape.sibs, hp1, hk0, after]

/-- **C14**.  `detach_single(x)` of a live node with parent `p` puts the children of `x`, in order, in the
place of `x`; `x` becomes an isolated root; nothing else changes. -/
theorem C14_detach_single_child (hm : Models f s) {x p : Nat} (hp : s.parent x = some p) :
    ∃ f' s' A B, Forest.detachSingle x f = .ok (.ok ()) f' ∧ Models f' s' ∧ Describes f' s' ∧
      f'.data = f.data ∧ s'.size = s.size ∧ (∀ y, s'.alive y = s.alive y) ∧
      s.kids p = A ++ x :: B ∧ s'.kids p = A ++ s.kids x ++ B ∧ s'.kids x = [] ∧
      (∀ q, q ≠ p → q ≠ x → s'.kids q = s.kids q) ∧
      s'.parent x = none ∧ (∀ c ∈ s.kids x, s'.parent c = some p) ∧
      (∀ y, y ≠ x → y ∉ s.kids x → s'.parent y = s.parent y) := by
  obtain ⟨f', h1, h2, h3⟩ := forest_detachSingle_child hm hp
  have hv := hm.valid
  have hne : p ≠ x := by
    rintro rfl; exact (hv.rooted p).acyclic hp .refl
  have hcx : ∀ c ∈ s.kids x, c ≠ x := by
    rintro c hc rfl
    exact (hv.rooted c).acyclic ((hv.mem_kids _ _).1 hc) .refl
  refine ⟨f', _, before (s.kids p) x, after (s.kids p) x, h1, h2, h2.describes, h3, rfl, fun _ => rfl,
    (before_after ((hv.mem_kids x p).2 hp)).symm, ?_, ?_, ?_, ?_, ?_, ?_⟩
  · simp [Shape.splice, hne]
  · simp [Shape.splice]
  · intro q h1 h2; simp [Shape.splice, h1, h2]
  · simp [Shape.splice]
  · intro c hc; simp [Shape.splice, hc, hcx c hc]
  · intro y h1 h2; simp [Shape.splice, h1, h2]

/-- **C14**, `x` a root: it succeeds exactly when `x` has at most one child, that child becoming a root and
nothing else changing; otherwise `Err(SiblingsWithoutParent)` and no change. -/
theorem C14_detach_single_root (hm : Models f s) {x : Nat} (hx : s.alive x = true) (hp : s.parent x = none) :
    (s.kids x = [] → Forest.detachSingle x f = .ok (.ok ()) f) ∧
    (∀ c, s.kids x = [c] → ∃ f' s', Forest.detachSingle x f = .ok (.ok ()) f' ∧ Models f' s' ∧
      Describes f' s' ∧ f'.data = f.data ∧ s'.size = s.size ∧ (∀ y, s'.alive y = s.alive y) ∧
      (∀ y, s'.parent y = if y = c then none else s.parent y) ∧
      (∀ q, s'.kids q = if q = x then [] else s.kids q)) ∧
    (2 ≤ (s.kids x).length → Forest.detachSingle x f = .ok (.error .siblingsWithoutParent) f) := by
  have hv := hm.valid
  refine ⟨forest_detachSingle_root_nil hm hx hp, fun c hc => ?_, forest_detachSingle_root_many hm hx hp⟩
  obtain ⟨f', h1, h2, h3⟩ := forest_detachSingle_root_one hm hx hp hc
  refine ⟨f', _, h1, h2, h2.describes, h3, rfl, fun _ => rfl, fun y => rfl, fun q => ?_⟩
  show (s.kids q).erase c = _
  split
  · rename_i e; subst e; rw [hc]; simp
  · rename_i e
    refine List.erase_of_not_mem fun h => e ?_
    have h1 := (hv.mem_kids _ _).1 h
    have h2 := (hv.mem_kids c x).1 (by rw [hc]; simp)
    rw [h1] at h2; cases h2; rfl

/-- `detach_single` and its error decided together. -/
theorem C14_detach_single_ok_iff (hm : Models f s) {x : Nat} (hx : s.alive x = true) :
    (∃ f', Forest.detachSingle x f = .ok (.ok ()) f') ↔ s.parent x ≠ none ∨ (s.kids x).length ≤ 1 := by
  cases hp : s.parent x with
  | some p =>
    obtain ⟨f', h, _⟩ := forest_detachSingle_child hm hp
    exact ⟨fun _ => .inl (by simp), fun _ => ⟨f', h⟩⟩
  | none =>
    obtain ⟨h1, h2, h3⟩ := C14_detach_single_root hm hx hp
    by_cases hl : 2 ≤ (s.kids x).length
    · refine ⟨fun ⟨f', h⟩ => ?_, fun h => ?_⟩
      · rw [h3 hl] at h; cases h
      · rcases h with h | h
        · exact absurd rfl h
        · omega
    · refine ⟨fun _ => .inr (by omega), fun _ => ?_⟩
      cases hk : s.kids x with
      | nil => exact ⟨f, h1 hk⟩
      | cons c l =>
        cases l with
        | nil => obtain ⟨f', _, h, _⟩ := h2 c hk; exact ⟨f', h⟩
        | cons c' l => rw [hk] at hl; simp at hl

/-- The sample: 2 has the parent 0 and the children 4, 5; 6 is a childless root; 0 a root with three children. -/
example : (∃ f', Forest.detachSingle 2 Sample.built = .ok (.ok ()) f' ∧ f'.nextSiblingId 1 = .ok (some 4) ∧
      f'.prevSiblingId 3 = .ok (some 5)) ∧
    Forest.detachSingle 6 Sample.built = .ok (.ok ()) Sample.built ∧
    Forest.detachSingle 0 Sample.built = .ok (.error .siblingsWithoutParent) Sample.built := by
  refine ⟨?_, (C14_detach_single_root Sample.models (x := 6) rfl rfl).1 rfl,
    (C14_detach_single_root Sample.models (x := 0) rfl rfl).2.2 (by decide)⟩
  obtain ⟨f', s', A, B, h1, hm, hd, _, _, ha, hk, hk', _, _, _, _, hp⟩ :=
    C14_detach_single_child Sample.models (x := 2) (p := 0) rfl
  have hn : ((1 : Nat) ∉ Sample.shape.kids 2 ∧ (3 : Nat) ∉ Sample.shape.kids 2) := by decide
  have hp1 : s'.parent 1 = some 0 := hp 1 (by decide) hn.1
  have hp3 : s'.parent 3 = some 0 := hp 3 (by decide) hn.2
  have hA : A = [1] ∧ B = [3] := by
    have : ([1, 2, 3] : List Nat) = A ++ 2 :: B := hk
    rcases A with _ | ⟨a, _ | ⟨b, A⟩⟩
    · simp at this
    · simp at this; exact ⟨by rw [this.1], this.2.symm⟩
    · simp at this
      obtain ⟨-, -, h⟩ := this
      rcases A with _ | ⟨c, A⟩ <;> simp at h
  have hk0 : s'.kids 0 = [1, 4, 5, 3] := by rw [hk', hA.1, hA.2]; rfl
  refine ⟨f', h1, ?_, ?_⟩
  · rw [hd.next 1 (ha 1)]; simp [Shape.next, Shape.sibs, hp1, hk0, after]
  · rw [hd.prev 3 (ha 3)]; simp [Shape.prev, Shape.sibs, hp3, hk0, before]

/-! ### The hypotheses can be met

Each example applies the theorem named in its comment to a concrete forest. -/

section
/-- `C13_detach_root`: root 6 and the inner node 2. -/
example : Forest.detach 6 Sample.built = .ok () Sample.built := (C13_detach_root Sample.models (x := 6) rfl).1 rfl

/-- `C13_detach_root`: root 6 and the inner node 2 (continued). -/
example := (C13_detach_root Sample.models (x := 2) rfl).2

/-- `C14_detach_single_ok_iff`: root 0 with three children, which is refused, and node 2. -/
example : ¬ ∃ f', Forest.detachSingle 0 Sample.built = .ok (.ok ()) f' := fun h =>
  absurd ((C14_detach_single_ok_iff Sample.models (x := 0) rfl).1 h) (by decide)

/-- `C14_detach_single_ok_iff`: root 0 with three children, which is refused, and node 2 (continued). -/
example : ∃ f', Forest.detachSingle 2 Sample.built = .ok (.ok ()) f' :=
  (C14_detach_single_ok_iff Sample.models (x := 2) rfl).2 (.inl (by decide))

end

end Treena
