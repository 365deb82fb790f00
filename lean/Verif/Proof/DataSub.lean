import Verif.Proof.Fresh
/-! Removals never change a datum they do not delete, in every state. -/
namespace Treena
variable {T : Type}

/-- Every datum is as before, or gone; the number of slots is as before. -/
def DataSub (f f' : Forest T) : Prop :=
  f'.data.length = f.data.length ∧ ∀ x, f'.getData x = f.getData x ∨ f'.getData x = none

theorem dataSub_ord : PreOrd (DataSub (T := T)) :=
  ⟨fun _ => ⟨rfl, fun _ => .inl rfl⟩, fun h1 h2 => ⟨h2.1.trans h1.1, fun x => by
    rcases h2.2 x with h | h
    · rw [h]; exact h1.2 x
    · exact .inr h⟩⟩

theorem onHier_sub {α : Type} (m : M Hier α) : Keeps DataSub (Forest.onHier m : M (Forest T) α) := fun f =>
  ⟨by rw [onHier_data], fun x => .inl (by unfold Forest.getData; rw [onHier_data])⟩

theorem takeData_sub (x : Nat) : Keeps DataSub (Forest.takeData x : M (Forest T) T) := by
  intro f
  unfold Forest.takeData
  split
  · exact dataSub_ord.refl f
  · exact dataSub_ord.refl f
  · refine ⟨by simp [Res.state], fun y => ?_⟩
    simp only [Res.state, Forest.getData, List.getElem?_set]
    split
    · rename_i e; subst e
      right; split <;> simp
    · exact .inl rfl

theorem closeForce_sub {S : Type} (hook : Forest.Hook S T) (x : Nat) :
    Keeps (On1 DataSub) (Forest.closeForce hook x) := by
  unfold Forest.closeForce
  refine Keeps.bind (On1.ord dataSub_ord) (onForest_keeps ?_) fun d => callHook_keeps dataSub_ord hook d
  exact Keeps.bind dataSub_ord (onHier_sub _) fun _ => takeData_sub x

theorem closePanicSafe_sub {S : Type} (hook : Forest.Hook S T) (x : Nat) :
    Keeps (On1 DataSub) (Forest.closePanicSafe hook x) := by
  unfold Forest.closePanicSafe
  refine Keeps.bind (On1.ord dataSub_ord) (onForest_keeps ?_) fun d => callHook_keeps dataSub_ord hook d
  refine Keeps.bind dataSub_ord (onHier_sub _) fun nb => ?_
  refine Keeps.bind dataSub_ord (Keeps.read dataSub_ord _) fun fc => ?_
  split
  · exact Keeps.panic dataSub_ord _
  refine Keeps.bind dataSub_ord (onHier_sub _) fun _ => ?_
  refine Keeps.bind dataSub_ord (onHier_sub _) fun nb => ?_
  refine Keeps.bind dataSub_ord (Keeps.read dataSub_ord _) fun al => ?_
  split
  · exact Keeps.panic dataSub_ord _
  exact Keeps.bind dataSub_ord (onHier_sub _) fun _ => takeData_sub x

theorem removeWith_sub {S : Type} {close : Nat → M (Forest T × S) Unit}
    (hc : ∀ x, Keeps (On1 DataSub) (close x)) (x : Nat) : Keeps (On1 DataSub) (Forest.removeWith close x) := by
  have hO := On1.ord (S := S) (dataSub_ord (T := T))
  unfold Forest.removeWith
  refine Keeps.bind hO (Keeps.read hO _) fun al => ?_
  split
  · exact Keeps.pure hO _
  refine Keeps.bind hO (onForest_keeps (onHier_sub _)) fun _ => ?_
  refine Keeps.bind hO (Keeps.read hO _) fun tr => ?_
  refine Keeps.bind hO (Keeps.read hO _) fun fuel => ?_
  exact removeLoop_keeps dataSub_ord hc _ _

theorem removeHooked_sub {S : Type} (hook : Forest.Hook S T) (x : Nat) :
    Keeps (On1 DataSub) (Forest.removeHooked hook x) := removeWith_sub (closeForce_sub hook) x
theorem removeHookedPanicSafe_sub {S : Type} (hook : Forest.Hook S T) (x : Nat) :
    Keeps (On1 DataSub) (Forest.removeHookedPanicSafe hook x) := removeWith_sub (closePanicSafe_sub hook) x

theorem remove_sub (x : Nat) : Keeps DataSub (Forest.remove x : M (Forest T) Unit) := by
  intro f
  have := removeHooked_sub (S := Unit) (fun s (_ : T) => .ok s) x (f, ())
  unfold Forest.remove
  cases h : Forest.removeHooked (S := Unit) (fun s (_ : T) => .ok s) x (f, ()) <;> rw [h] at this <;> exact this

end Treena
