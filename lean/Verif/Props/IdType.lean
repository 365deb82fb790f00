import Verif.Proof.Agree
import Verif.Props.Builders
import Verif.Spec.Careful
import Verif.Props.SampleRun
/-!
# C60: the ID type does not matter until its values are exhausted

`cap` and `cap'` are the numbers of values of two ID types (e.g. 255 for `u8`-based IDs). -/
set_option autoImplicit false

namespace Treena
variable {T S : Type} {cap cap' : Nat} {f : Forest T}

theorem slots_eq (hc : Coherent f) : f.slots = f.issued := hc.len.symm

/-- **C60**, one call.  If a creating call with the larger ID type ends (returning or panicking) with no more IDs
issued than the smaller type has, then the same call with the smaller type has the same outcome: same result or
panic, same forest, same state of the callback. -/
theorem C60_calls (hcc : cap ≤ cap') (hc : Coherent f) :
    (∀ d, (Forest.createRoot cap' d f).state.issued ≤ cap → Forest.createRoot cap d f = Forest.createRoot cap' d f) ∧
    (∀ d dest, (Forest.createInsert cap' d dest f).state.issued ≤ cap →
      Forest.createInsert cap d dest f = Forest.createInsert cap' d dest f) ∧
    (∀ self d dest, (NodeMut.create cap' self d dest f).state.issued ≤ cap →
      NodeMut.create cap self d dest f = NodeMut.create cap' self d dest f) ∧
    (∀ cl (hook : Forest.MapHook S) σ x, (Forest.cloneLocalTreeWithIdMapping cap' cl hook x (f, σ)).state.1.issued ≤ cap →
      Forest.cloneLocalTreeWithIdMapping cap cl hook x (f, σ) = Forest.cloneLocalTreeWithIdMapping cap' cl hook x (f, σ)) ∧
    (∀ cl (hook : Forest.MapHook S) σ fs x,
      (Forest.cloneForeignTreeWithIdMapping cap' cl hook fs x (f, σ)).state.1.issued ≤ cap →
      Forest.cloneForeignTreeWithIdMapping cap cl hook fs x (f, σ) =
        Forest.cloneForeignTreeWithIdMapping cap' cl hook fs x (f, σ)) ∧
    (∀ d calls, (nestBuild cap' d calls f).state.issued ≤ cap → nestBuild cap d calls f = nestBuild cap' d calls f) ∧
    (∀ d calls, (chainBuild cap' d calls f).state.issued ≤ cap →
      chainBuild cap d calls f = chainBuild cap' d calls f) := by
  have kb : Kept cap' (Both (T := T)) := both_kept
  refine ⟨fun d h => ?_, fun d dest h => ?_, fun self d dest h => ?_, fun cl hook σ x h => ?_, fun cl hook σ fs x h => ?_,
    fun d calls h => ?_, fun d calls h => ?_⟩
  · refine (lim_createRoot hcc d f).2 ?_
    rw [slots_eq (((kb.root d f).1 hc).1)]; exact h
  · refine (lim_createInsertMomo hcc d dest f).2 ?_
    have := slots_eq (((kb.momo d dest f).1 hc).1)
    rw [this]; exact h
  · refine (lim_createInsertMomo hcc d _ f).2 ?_
    have := slots_eq (((kb.momo d (dest.insertWithAnchor self) f).1 hc).1)
    rw [this]; exact h
  · refine (lim_cloneLocal hcc cl hook x (f, σ)).2 ?_
    have := slots_eq (((cloneLocal_kept kb cl hook x (f, σ)).1 hc).1)
    unfold slots1; rw [this]; exact h
  · refine (lim_cloneForeign hcc cl hook fs x (f, σ)).2 ?_
    have := slots_eq (((cloneForeign_kept kb cl hook fs x (f, σ)).1 hc).1)
    unfold slots1; rw [this]; exact h
  · refine (lim_nestBuild hcc d calls f).2 ?_
    rw [slots_eq (((nestBuild_kept kb d calls f).1 hc).1)]; exact h
  · refine (lim_chainBuild hcc d calls f).2 ?_
    rw [slots_eq (((chainBuild_kept kb d calls f).1 hc).1)]; exact h

theorem C60_step (hcc : cap ≤ cap') (hc : Coherent f) (op : Op T) (h : (Op.step cap' f op).issued ≤ cap) :
    Op.step cap f op = Op.step cap' f op ∧ Op.newId cap f op = Op.newId cap' f op ∧
      op.succeeds cap f = op.succeeds cap' f := by
  obtain ⟨h1, h2, h3, _, _, h6, h7⟩ := C60_calls (S := Unit) hcc hc
  cases op with
  | createRoot d => have := h1 d h; simp only [Op.step, Op.newId, Op.succeeds, this, and_self]
  | createInsert d dest => have := h2 d dest h; simp only [Op.step, Op.newId, Op.succeeds, this, and_self]
  | cloneLocal S' cl hook c x =>
    have := (C60_calls (S := S') hcc hc).2.2.2.1 cl hook c x h
    simp only [Op.step, Op.newId, Op.succeeds, this, and_self]
  | cloneForeign S' cl hook c fsrc x =>
    have := (C60_calls (S := S') hcc hc).2.2.2.2.1 cl hook c fsrc x h
    simp only [Op.step, Op.newId, Op.succeeds, this, and_self]
  | nodeCreate self d dest =>
    by_cases hl : f.isAlive self = true
    · simp only [Op.step, if_pos hl] at h
      have := h3 self d dest h; simp only [Op.step, Op.newId, Op.succeeds, this, and_self]
    · have hl' : f.isAlive self = false := by simpa using hl
      refine ⟨?_, ?_, ?_⟩ <;> simp [Op.step, Op.newId, Op.succeeds, hl']
  | nest d calls => have := h6 d calls h; simp only [Op.step, Op.newId, Op.succeeds, this, and_self]
  | chain d calls => have := h7 d calls h; simp only [Op.step, Op.newId, Op.succeeds, this, and_self]
  | _ => exact ⟨rfl, rfl, rfl⟩

/-- The results of the calls of a history: returned IDs and whether the calls succeeded. -/
def Op.results (cap : Nat) : Forest T → List (Op T) → List (Option Nat × Bool)
  | _, [] => []
  | f, op :: ops => (op.newId cap f, op.succeeds cap f) :: results cap (op.step cap f) ops

/-- **C60**, histories.  If a history with the larger ID type issues no more IDs than the smaller type has, then
with the smaller type it goes the same: the same forest in the end, the same IDs and outcomes of all calls. -/
theorem C60_histories (hcc : cap ≤ cap') : ∀ (ops : List (Op T)) (f : Forest T), Coherent f →
    (Op.run cap' f ops).issued ≤ cap →
    Op.run cap f ops = Op.run cap' f ops ∧ Op.results cap f ops = Op.results cap' f ops
  | [], _, _, _ => ⟨rfl, rfl⟩
  | op :: ops, f, hc, h => by
    have hc1 := (step_evolves (cap := cap') f op hc).1
    have hle : (Op.step cap' f op).issued ≤ cap :=
      Nat.le_trans (run_evolves (cap := cap') ops _ hc1).2.issued h
    obtain ⟨e1, e2, e3⟩ := C60_step hcc hc op hle
    obtain ⟨e4, e5⟩ := C60_histories hcc ops _ hc1 h
    have hr : ∀ c, Op.run c f (op :: ops) = Op.run c (op.step c f) ops := fun _ => rfl
    refine ⟨?_, ?_⟩
    · rw [hr, hr, e1]; exact e4
    · unfold Op.results
      rw [e1, e2, e3, e5]

/-- Four nodes with 8-bit and with 64-bit IDs; with only three IDs the history goes differently. -/
example :
    let ops : List (Op Nat) := [.createRoot 1, .nest 2 [.addChild 3], .createInsert 4 (.lastChildOf 0)]
    Op.run 255 Forest.new ops = Op.run (2 ^ 64 - 1) Forest.new ops ∧
    Op.results 3 Forest.new ops ≠ Op.results 255 Forest.new ops := by
  refine ⟨(C60_histories (by decide) _ _ coherent_new (by decide)).1, by decide⟩

/-! ### The hypotheses can be met

Each example applies the theorem named in its comment to a concrete forest. -/

section
/-- `C60_calls`: an ID type with 9 IDs and one with 100. -/
example := C60_calls (S := Unit) (cap := 9) (cap' := 100) (by decide) Sample.coherent

/-- `C60_step`: creating the ninth node. -/
example := C60_step (cap := 9) (cap' := 100) (by decide) Sample.coherent (.createRoot 42) (by decide)

end

end Treena
