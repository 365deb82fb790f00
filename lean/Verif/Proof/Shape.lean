import Verif.Proof.Links
import Verif.Proof.Connect
/-! Facts about valid shapes and their representation. -/
namespace Treena

theorem AncOrSelf.trans {par : Nat → Option Nat} {a b c : Nat} (h1 : AncOrSelf par a b)
    (h2 : AncOrSelf par b c) : AncOrSelf par a c := by
  induction h2 with
  | refl => exact h1
  | step hp _ ih => exact .step hp ih

theorem AncOrSelf.parent {par : Nat → Option Nat} {x p : Nat} (h : par x = some p) :
    AncOrSelf par p x := .step h .refl

/-- A node is not an ancestor of its parent. -/
theorem Rooted.acyclic {par : Nat → Option Nat} {x p : Nat} (hr : Rooted par x)
    (hp : par x = some p) : ¬ AncOrSelf par x p := by
  induction hr generalizing p with
  | root h => simp [h] at hp
  | @step x p' h _ ih =>
    have : p' = p := by rw [h] at hp; exact Option.some.inj hp
    subst this
    intro ha
    cases ha with
    | refl => exact ih h .refl
    | step hq ha => exact ih hq ((AncOrSelf.parent h).trans ha)

theorem Rooted.parent_ne {par : Nat → Option Nat} {x p : Nat} (hr : Rooted par x)
    (hp : par x = some p) : p ≠ x := by
  intro e; subst e; exact hr.acyclic hp .refl

theorem Rooted.antisymm {par : Nat → Option Nat} {x y : Nat} (hr : Rooted par y)
    (h1 : AncOrSelf par x y) (h2 : AncOrSelf par y x) : x = y := by
  cases h1 with
  | refl => rfl
  | step hp ha => exact absurd (h2.trans ha) (hr.acyclic hp)

/-- Two ancestors of a node are comparable. -/
theorem AncOrSelf.linear {par : Nat → Option Nat} {a b x : Nat} (h1 : AncOrSelf par a x)
    (h2 : AncOrSelf par b x) : AncOrSelf par a b ∨ AncOrSelf par b a := by
  induction h1 with
  | refl => exact .inr h2
  | step hp _ ih =>
    cases h2 with
    | refl => left; exact .step hp ‹_›
    | step hp' h2 =>
      rw [hp] at hp'; cases hp'; exact ih h2

namespace Shape
variable {s : Shape}

theorem Valid.parent_ne (hv : s.Valid) {x p : Nat} (hp : s.parent x = some p) : p ≠ x :=
  (hv.rooted x).parent_ne hp

theorem Valid.dead_parent (hv : s.Valid) {x : Nat} (h : s.alive x = false) : s.parent x = none := by
  cases e : s.parent x with
  | none => rfl
  | some p => have := (hv.parent_alive x p e).1; simp [h] at this

theorem Valid.dead_kids (hv : s.Valid) {x : Nat} (h : s.alive x = false) : s.kids x = [] := by
  cases e : s.kids x with
  | nil => rfl
  | cons a l =>
    have := (hv.parent_alive a x ((hv.mem_kids a x).1 (by simp [e]))).2
    simp [h] at this

theorem Valid.kid_parent (hv : s.Valid) {x p : Nat} (h : x ∈ s.kids p) : s.parent x = some p :=
  (hv.mem_kids x p).1 h

theorem Valid.kid_alive (hv : s.Valid) {x p : Nat} (h : x ∈ s.kids p) : s.alive x = true :=
  (hv.parent_alive x p (hv.kid_parent h)).1

theorem Valid.kids_disjoint (hv : s.Valid) {x p q : Nat} (h : x ∈ s.kids p) (h' : x ∈ s.kids q) :
    p = q := by
  have h1 := hv.kid_parent h
  have h2 := hv.kid_parent h'
  rw [h1] at h2; exact Option.some.inj h2

theorem Valid.self_not_kid (hv : s.Valid) {x : Nat} : x ∉ s.kids x := by
  intro h; exact hv.parent_ne (hv.kid_parent h) rfl

theorem Valid.mem_sibs (hv : s.Valid) (x : Nat) : x ∈ s.sibs x := by
  cases e : s.parent x with
  | none => simp [sibs_root e]
  | some p => rw [sibs_child e]; exact (hv.mem_kids x p).2 e

theorem Valid.sibs_nodup (hv : s.Valid) (x : Nat) : (s.sibs x).Nodup := by
  cases e : s.parent x with
  | none => simp [sibs_root e]
  | some p => rw [sibs_child e]; exact hv.kids_nodup p

theorem Valid.sibs_alive (hv : s.Valid) {x y : Nat} (hx : s.alive x = true) (h : y ∈ s.sibs x) :
    s.alive y = true := by
  cases e : s.parent x with
  | none => rw [sibs_root e] at h; simp at h; subst h; exact hx
  | some p => rw [sibs_child e] at h; exact hv.kid_alive h

theorem getLast?_of_mem {l : List Nat} {x : Nat} (h : x ∈ l) : ∃ z, l.getLast? = some z ∧ z ∈ l := by
  cases e : l.getLast? with
  | none => rw [List.getLast?_eq_none_iff] at e; simp [e] at h
  | some z => exact ⟨z, rfl, List.mem_of_getLast? e⟩

theorem pc_some {l : List Nat} {x : Nat} (h : x ∈ l) : ∃ z, pc l x = some z ∧ z ∈ l := by
  unfold pc
  cases e : pv l x with
  | none => obtain ⟨z, hz⟩ := getLast?_of_mem h; exact ⟨z, by simp [hz.1], hz.2⟩
  | some z => exact ⟨z, by simp, before_sub (List.mem_of_getLast? e)⟩

theorem Valid.link_alive (hv : s.Valid) (x : Nat) : (s.link x).isAlive = true := by
  obtain ⟨z, hz, _⟩ := pc_some (hv.mem_sibs x)
  rw [link_eq]; simp [Neighbors.isAlive, hz]

theorem entry_alive {x : Nat} (h : s.alive x = true) : s.entry x = s.link x := by
  simp [entry, h]

theorem entry_dead {x : Nat} (h : s.alive x = false) : s.entry x = Neighbors.removed := by
  simp [entry, h]

theorem Valid.entry_isAlive (hv : s.Valid) (x : Nat) : (s.entry x).isAlive = s.alive x := by
  cases h : s.alive x with
  | true => rw [entry_alive h, hv.link_alive]
  | false => rw [entry_dead h]; rfl

end Shape

/-- `Repr`, in terms of record lookups. -/
def Agrees (h : Hier) (s : Shape) : Prop :=
  h.nbrs.length = s.size ∧ ∀ x, h.get x = s.entry x

theorem repr_iff_agrees {h : Hier} {s : Shape} (hv : s.Valid) : Repr h s ↔ Agrees h s := by
  unfold Repr Agrees Hier.get
  constructor
  · rintro ⟨hl, he⟩
    refine ⟨hl, fun x => ?_⟩
    by_cases hx : x < s.size
    · rw [he x hx]; rfl
    · rw [List.getElem?_eq_none (by omega)]
      have : s.alive x = false := by
        cases e : s.alive x with
        | false => rfl
        | true => exact absurd (hv.alive_lt x e) hx
      rw [Shape.entry_dead this]; rfl
  · rintro ⟨hl, he⟩
    refine ⟨hl, fun x hx => ?_⟩
    have := he x
    rw [List.getElem?_eq_getElem (by omega)] at this ⊢
    simpa using this

namespace Agrees
variable {h : Hier} {s : Shape}

theorem live_iff (ha : Agrees h s) (hv : s.Valid) (x : Nat) : h.live x ↔ s.alive x = true := by
  unfold Hier.live; rw [ha.2 x, hv.entry_isAlive]

theorem get_alive (ha : Agrees h s) {x : Nat} (hx : s.alive x = true) : h.get x = s.link x := by
  rw [ha.2 x, Shape.entry_alive hx]

theorem unique (ha : Agrees h s) {h' : Hier} (ha' : Agrees h' s) : h = h' :=
  Hier.ext_get (by rw [ha.1, ha'.1]) (fun x => by rw [ha.2, ha'.2])

/-- The previous sibling read from the arena. -/
theorem prevSibling (ha : Agrees h s) (hv : s.Valid) {x : Nat} (hx : s.alive x = true) :
    (h.get x).prevSibling h = .ok (s.prev x) := by
  have hm := hv.mem_sibs x
  obtain ⟨v, hv1, hv2⟩ := Shape.pc_some hm
  have hva : s.alive v = true := hv.sibs_alive hx hv2
  have h1 : (h.get x).prevCyc = some v := by rw [ha.get_alive hx, Shape.link_eq]; exact hv1
  rw [Hier.prevSibling_eq h1 ((ha.live_iff hv v).2 hva), ha.get_alive hva]
  have hnext : (s.link v).next = nx (s.sibs x) v := by
    rw [Shape.link_eq]
    show nx (s.sibs v) v = _
    cases e : s.parent x with
    | none =>
      rw [Shape.sibs_root e] at hv2 ⊢; simp at hv2; subst hv2; rw [Shape.sibs_root e]
    | some p =>
      rw [Shape.sibs_child e] at hv2 ⊢; rw [Shape.sibs_child (hv.kid_parent hv2)]
  rw [hnext]
  show _ = Except.ok (pv (s.sibs x) x)
  congr 1
  rw [pc_self hm] at hv1
  have hnd := hv.sibs_nodup x
  have nxnone : ∀ u, u ∈ s.sibs x → (nx (s.sibs x) u = none ↔ (s.sibs x).getLast? = some u) := by
    intro u hu; unfold nx; rw [List.head?_eq_none_iff, after_eq_nil_iff hnd hu]
  split at hv1
  · rename_i hh
    rw [(pv_eq_none_iff hm).2 hh, (nxnone v hv2).2 hv1]; rfl
  · rename_i hh
    rw [hv1]
    cases e : nx (s.sibs x) v with
    | some z => simp
    | none =>
      exfalso
      have hlast := (nxnone v hv2).1 e
      -- `v` is the last element and strictly before `x`
      unfold pv at hv1
      have hmem := List.mem_of_getLast? hv1
      have dec := before_after hm
      rw [← dec] at hnd hlast
      rw [List.getLast?_append] at hlast
      have : v ∈ x :: after (s.sibs x) x := by
        cases h' : (x :: after (s.sibs x) x).getLast? with
        | none => simp at h'
        | some z =>
          rw [h'] at hlast
          simp at hlast
          subst hlast
          exact List.mem_of_getLast? h'
      rw [List.nodup_append] at hnd
      exact hnd.2.2 v hmem v this rfl

theorem firstLastChild (ha : Agrees h s) (hv : s.Valid) {x : Nat} (hx : s.alive x = true) :
    (h.get x).firstLastChild h =
      .ok ((s.kids x).head?.bind fun a => (s.kids x).getLast?.map fun b => (a, b)) := by
  have hl := (ha.live_iff hv x).2 hx
  have hf : (h.get x).first = (s.kids x).head? := by rw [ha.get_alive hx]; rfl
  cases e : s.kids x with
  | nil => rw [Hier.firstLastChild_none hl (by rw [hf, e]; rfl)]; rfl
  | cons c l =>
    have hc : s.parent c = some x := hv.kid_parent (by simp [e])
    have hca := hv.kid_alive (x := c) (p := x) (by simp [e])
    have hp : (h.get c).prevCyc = (s.kids x).getLast? := by
      rw [ha.get_alive hca, Shape.link_child hc]
      show pc _ _ = _
      rw [pc_self (by simp [e])]; simp [e]
    obtain ⟨z, hz, _⟩ := Shape.getLast?_of_mem (l := s.kids x) (x := c) (by simp [e])
    rw [Hier.firstLastChild_some hl (by rw [hf, e]; rfl) (by rw [hp]; exact hz)]
    rw [← e, hz]; simp [e]

theorem lastChild (ha : Agrees h s) (hv : s.Valid) {x : Nat} (hx : s.alive x = true) :
    (h.get x).lastChild h = .ok (s.kids x).getLast? := by
  unfold Neighbors.lastChild
  rw [ha.firstLastChild hv hx]
  cases e : s.kids x with
  | nil => rfl
  | cons c l =>
    obtain ⟨z, hz, _⟩ := Shape.getLast?_of_mem (l := c :: l) (x := c) (by simp)
    simp [hz]

end Agrees
end Treena
