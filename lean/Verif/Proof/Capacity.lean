import Verif.Proof.DataSub
/-! The number of IDs handed out never exceeds the capacity of the ID type. -/
set_option autoImplicit false

namespace Treena
variable {T : Type} {cap : Nat}

/-- Stays within the capacity. -/
def Fits (cap : Nat) (f f' : Forest T) : Prop := Coherent f → Coherent f' ∧ (f.issued ≤ cap → f'.issued ≤ cap)

theorem fits_ord : PreOrd (Fits (T := T) cap) :=
  ⟨fun _ h => ⟨h, id⟩, fun h1 h2 h => ⟨(h2 (h1 h).1).1, fun hl => (h2 (h1 h).1).2 ((h1 h).2 hl)⟩⟩

theorem fits_onHier {α : Type} {m : M Hier α} (hm : Keeps Hier.SameLive m) :
    Keeps (Fits cap) (Forest.onHier m : M (Forest T) α) := fun f hc => by
  refine ⟨((onHier_both hm f).1 hc).1, fun h => ?_⟩
  unfold Forest.issued
  rw [onHier_data]; exact h

theorem createRoot_fits (d : T) : Keeps (Fits cap) (Forest.createRoot cap d) := by
  intro f hc
  refine ⟨((createRoot_both cap d f).1 hc).1, fun hle => ?_⟩
  have hl := hc.len
  by_cases hcap : f.hier.nbrs.length < cap
  · have hr : Hier.createRoot cap f.hier = .ok f.hier.nbrs.length
        { nbrs := f.hier.nbrs ++ [Neighbors.newRoot f.hier.nbrs.length] } := by
      simp [Hier.createRoot, Hier.fromUsize, hcap]
    simp [Forest.createRoot, Forest.onHier, M.zoom, hr, M.read, hl, Forest.pushData, Res.state, Forest.issued]
    omega
  · have hr : Forest.createRoot cap d f = .fail
        (.panic "[precondition] node ID overflowed presumably due to too many node creations") f := by
      simp [Forest.createRoot, Forest.onHier, M.zoom, Hier.createRoot, Hier.fromUsize, hcap]
    rw [hr]; exact hle

theorem pushRoot_fits (d : T) : Keeps (Fits cap) (pushRoot cap d) := by
  intro f hc
  refine ⟨((pushRoot_both cap d f).1 hc).1, fun hle => ?_⟩
  have hl := hc.len
  by_cases hcap : f.hier.nbrs.length < cap
  · have hr : Hier.createRoot cap f.hier = .ok f.hier.nbrs.length
        { nbrs := f.hier.nbrs ++ [Neighbors.newRoot f.hier.nbrs.length] } := by
      simp [Hier.createRoot, Hier.fromUsize, hcap]
    simp [pushRoot, Forest.onHier, M.zoom, hr, Forest.pushData, Res.state, Forest.issued]
    omega
  · have hr : pushRoot cap d f = .fail
        (.panic "[precondition] node ID overflowed presumably due to too many node creations") f := by
      simp [pushRoot, Forest.onHier, M.zoom, Hier.createRoot, Hier.fromUsize, hcap]
    rw [hr]; exact hle

theorem fits_kept : Kept cap (Fits (T := T) cap) := by
  refine ⟨fits_ord, createRoot_fits, fun d dest => ?_, fun x dest => fits_onHier (Hier.insert_sameLive x dest),
    fun x => fits_onHier (Hier.detach_sameLive x), fun x => fits_onHier (Hier.detachSingle_sameLive x)⟩
  rw [createInsertMomo_eq]
  refine Keeps.bind fits_ord (Keeps.read fits_ord _) fun v => ?_
  split
  · exact Keeps.panic fits_ord _
  refine Keeps.bind fits_ord (pushRoot_fits d) fun id => ?_
  refine Keeps.bind fits_ord (fits_onHier (Hier.insert_sameLive id dest)) fun r => ?_
  split
  · exact Keeps.panic fits_ord _
  · exact Keeps.pure fits_ord _

theorem step_fits (f : Forest T) (op : Op T) : Fits cap f (Op.step cap f op) := by
  by_cases h : op.structural = true
  · exact step_kept fits_kept f op h
  · intro hc
    refine ⟨(step_evolves f op hc).1, fun hle => ?_⟩
    have key : (Op.step cap f op).issued = f.issued := by
      cases op with
      | setData id v =>
        simp only [Op.step, Forest.setData, Forest.issued]
        cases f.getData id <;> simp [Res.state]
      | remove x => exact (remove_sub x f).1
      | removeHooked S hook c x => exact (removeHooked_sub hook x (f, c)).1
      | removeHookedPanicSafe S hook c x => exact (removeHookedPanicSafe_sub hook x (f, c)).1
      | _ => simp [Op.structural] at h
    rw [key]; exact hle

theorem run_fits (ops : List (Op T)) : ∀ f : Forest T, Fits cap f (Op.run cap f ops) := by
  induction ops with
  | nil => intro f; exact fits_ord.refl f
  | cons op ops ih => intro f; exact fits_ord.trans (step_fits f op) (ih _)

end Treena
