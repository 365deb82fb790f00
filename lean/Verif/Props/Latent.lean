import Verif.Proof.Walk
import Verif.Proof.Paths
import Verif.Proof.Insert
import Verif.Props.Sample
/-!
# A latent fault in code the public interface does not reach (finding 10 in `DESIGN.md`)

Moving a range of siblings under one of their descendants must be refused.  The check for it, `transplant_would_make_cyclic_links` (`hierarchy.rs` 854-933),
answers yes exactly if the new parent *is* one of the siblings; a parent further down is not noticed.  The only caller with several siblings,
`detach_single`, moves them upwards, so that this has no effect (C15).
-/
set_option autoImplicit false

namespace Treena
open Hier Shape
variable {h : Hier} {s : Shape}

theorem rangeContains_eq (ha : Agrees h s) (hv : s.Valid) {rp l prevA : Nat} : ∀ (C : List Nat) (f : Nat) (A B : List Nat) (fuel : Nat),
    s.kids rp = A ++ C ++ B → C.head? = some f → C.getLast? = some l → C.length ≤ fuel →
    rangeContains h l prevA fuel (some f) = .ok (decide (prevA ∈ C)) := by
  intro C
  induction C with
  | nil => intro f A B fuel _ hf; simp at hf
  | cons c C ih =>
    intro f A B fuel hk hf hl hfu
    simp at hf; subst hf
    obtain ⟨fuel, rfl⟩ : ∃ k, fuel = k + 1 := ⟨fuel - 1, by simp at hfu; omega⟩
    have hc : s.alive c = true := hv.kid_alive (p := rp) (by rw [hk]; simp)
    have hnd := hv.kids_nodup rp
    rw [rangeContains]
    by_cases e : c = prevA
    · simp [e]
    rw [if_neg e]
    have e' : prevA ≠ c := fun h => e h.symm
    cases C with
    | nil =>
      simp only [List.getLast?_singleton, Option.some.injEq] at hl
      rw [if_pos hl]
      simp [e']
    | cons d C =>
      rw [List.getLast?_cons_cons] at hl
      have hne : c ≠ l := by
        rintro rfl
        have := List.mem_of_getLast? hl
        rw [hk, List.append_assoc, List.nodup_append] at hnd
        have h2 := hnd.2.1
        rw [List.nodup_append] at h2
        exact (List.nodup_cons.1 h2.1).1 this
      rw [if_neg hne]
      rw [neighbors_live ((ha.live_iff hv c).2 hc)]
      simp only [expect_some, ha.nextSibling_get hv hc]
      rw [next_mid hv (x := rp) (pre := A) (a := c) (b := d) (post := C ++ B) (by rw [hk]; simp)]
      rw [ih d (A ++ [c]) B fuel (by rw [hk]; simp) rfl hl (by simp at hfu ⊢; omega)]
      simp [e']

theorem rangeLoop_full {par : Nat → Option Nat} {first last rp x : Nat} {l C : List Nat}
    (hp : UpPath par x l) (hr : ReadsPath h par l) {fuel inner prevA : Nat}
    (hc : rangeContains h last prevA inner (some first) = .ok (decide (prevA ∈ C)))
    (hf : l.length < fuel) :
    rangeLoop h first last rp inner fuel (some x) prevA = .ok (decide (rp ∈ l ∧ prevA ∈ C)) := by
  induction hp generalizing fuel with
  | @root x h0 =>
    obtain ⟨hl, hpar⟩ := hr x (by simp)
    obtain ⟨fuel, rfl⟩ : ∃ k, fuel = k + 2 := ⟨fuel - 2, by simp at hf; omega⟩
    by_cases hne : x = rp
    · subst hne
      rw [rangeLoop]
      simp only [ancestors_next_some hl, hpar, h0, ne_eq, not_true, if_false, hc]
      by_cases hm : prevA ∈ C
      · simp [hm]
      · simp [hm, rangeLoop, Ancestors.next]
    · have hnm : rp ∉ [x] := by simp; exact fun e => hne e.symm
      rw [rangeLoop_eq (.root h0) hr hnm (by simp)]
      simp [hnm]
  | @step x p l h0 hp ih =>
    obtain ⟨hl, hpar⟩ := hr x (by simp)
    obtain ⟨fuel, rfl⟩ : ∃ k, fuel = k + 1 := ⟨fuel - 1, by simp at hf; omega⟩
    have hnd := (UpPath.step h0 hp).nodup
    by_cases hne : x = rp
    · subst hne
      rw [rangeLoop]
      simp only [ancestors_next_some hl, hpar, h0, ne_eq, not_true, if_false, hc]
      by_cases hm : prevA ∈ C
      · simp [hm]
      · simp only [hm, decide_false, and_false]
        exact rangeLoop_eq hp (fun y hy => hr y (by simp [hy])) (List.nodup_cons.1 hnd).1 (by simp at hf; omega)
    · rw [rangeLoop]
      simp only [ancestors_next_some hl, hpar, h0, ne_eq, hne, not_false_eq_true, if_true]
      rw [ih (fun y hy => hr y (by simp [hy])) (by simp at hf; omega)]
      have : rp ≠ x := fun e => hne e.symm
      simp [this]

/-- What the check answers on a consistent forest for the siblings `C` (at least two, consecutive) and any live new parent:
yes exactly if the new parent is one of them. -/
theorem finding10_range_check (ha : Agrees h s) (hv : s.Valid) {rp P f l : Nat} {A C B : List Nat}
    (hk : s.kids rp = A ++ C ++ B) (hf : C.head? = some f) (hl : C.getLast? = some l) (hfl : f ≠ l) (hP : s.alive P = true) :
    wouldMakeCyclicLinks h f l P = .ok (decide (P ∈ C)) := by
  have hfC : f ∈ C := List.mem_of_mem_head? hf
  have hCk : ∀ y ∈ C, y ∈ s.kids rp := fun y hy => by rw [hk]; simp [hy]
  have hfp : s.parent f = some rp := hv.kid_parent (hCk f hfC)
  have hfa : s.alive f = true := (hv.parent_alive _ _ hfp).1
  have hfl' := (ha.live_iff hv f).2 hfa
  have hPl := (ha.live_iff hv P).2 hP
  unfold wouldMakeCyclicLinks
  simp only [neighbors_live hfl', expect_some, if_neg hfl, ha.getParent_get hv hfa, hfp, Ancestors.withStart]
  rw [(isAlive_iff h P).2 hPl]
  by_cases e : rp = P
  · subst e
    rw [if_pos rfl]
    have : rp ∉ C := fun hm => hv.parent_ne (hv.kid_parent (hCk rp hm)) rfl
    simp [this]
  rw [if_neg e]
  obtain ⟨pl, hpath⟩ := UpPath.exists_of_rooted (hv.rooted P)
  have hreads : ReadsPath h s.parent pl := by
    intro y hy
    have hya := (hpath.mem_iff.1 hy).alive hv hP
    exact ⟨(ha.live_iff hv y).2 hya, by rw [ha.get_alive hya]; rfl⟩
  have hplen : pl.length ≤ s.size := hv.path_length hpath hP
  have hpp := (hreads P (hpath.mem_iff.2 .refl)).2
  have hlenC : C.length ≤ s.size := by
    refine nodup_length_le ?_ fun y hy => hv.alive_lt _ (hv.kid_alive (hCk y hy))
    have hnd := hv.kids_nodup rp
    rw [hk, List.append_assoc, List.nodup_append] at hnd
    exact (List.nodup_append.1 hnd.2.1).1
  have hsz : h.nbrs.length = s.size := ha.1
  simp only [Bool.not_true, Bool.false_eq_true, if_false]
  rw [ancestors_next_some hPl]
  simp only [expect_some]
  rw [hpp]
  have hcont := rangeContains_eq (prevA := P) ha hv C f A B (loopFuel h) hk hf hl (by unfold loopFuel; omega)
  cases hpath with
  | root h0 =>
    have hPC : P ∉ C := fun hm => by have := hv.kid_parent (hCk P hm); rw [h0] at this; cases this
    rw [h0, show 2 * loopFuel h = (2 * h.nbrs.length + 3) + 1 by unfold loopFuel; omega]
    simp [rangeLoop, Ancestors.next, hPC]
  | @step _ q l' h0 hpath' =>
    rw [h0]
    rw [rangeLoop_full hpath' (fun y hy => hreads y (by simp [hy])) hcont (by unfold loopFuel; simp at hplen; omega)]
    congr 1
    rw [decide_eq_decide]
    refine ⟨fun hh => hh.2, fun hm => ⟨?_, hm⟩⟩
    have := hv.kid_parent (hCk P hm)
    rw [h0] at this
    cases this
    exact hpath'.mem_iff.2 .refl

/-- So the check misses exactly the new parents that are proper descendants of one of the siblings. -/
theorem finding10_missed (ha : Agrees h s) (hv : s.Valid) {rp P y f l : Nat} {A C B : List Nat}
    (hk : s.kids rp = A ++ C ++ B) (hf : C.head? = some f) (hl : C.getLast? = some l) (hfl : f ≠ l)
    (hy : y ∈ C) (hyP : AncOrSelf s.parent y P) (hne : P ∉ C) :
    wouldMakeCyclicLinks h f l P = .ok false := by
  have hya : s.alive y = true := hv.kid_alive (p := rp) (by rw [hk]; simp [hy])
  rw [finding10_range_check ha hv hk hf hl hfl (hyP.alive_down hv hya)]
  simp [hne]

/-- In the sample, moving the siblings 2 and 3 below 4 (a child of 2) is not refused. -/
example : wouldMakeCyclicLinks Sample.built.hier 2 3 4 = .ok false :=
  finding10_missed (rp := 0) (y := 2) (A := [1]) (C := [2, 3]) (B := []) Sample.models.agrees Sample.models.valid rfl rfl rfl (by decide)
    (by decide) (.step (p := 2) rfl .refl) (by decide)

/-- It gives a cycle of parents: 2 below 4 and 4 below 2. -/
theorem finding10_cycle : ∃ h', transplant 2 3 4 none none Sample.built.hier = .ok (.ok ()) h' ∧
    (h'.get 2).parent = some 4 ∧ (h'.get 4).parent = some 2 := ⟨_, rfl, rfl, rfl⟩

end Treena
