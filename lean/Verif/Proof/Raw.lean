import Verif.Spec.Models
import Verif.Proof.Lists
/-! Running the modelled primitives on an arena. -/
namespace Treena
namespace Hier

/-- Record at `x`, the removed record when out of range. -/
def get (h : Hier) (x : Nat) : Neighbors := (h.nbrs[x]?).getD Neighbors.removed

/-- Overwrite a record. -/
def put (h : Hier) (x : Nat) (nb : Neighbors) : Hier := { nbrs := h.nbrs.set x nb }

/-- Liveness of a record. -/
def live (h : Hier) (x : Nat) : Prop := (h.get x).isAlive = true

instance (h : Hier) (x : Nat) : Decidable (h.live x) := by unfold live; infer_instance

theorem removed_not_alive : Neighbors.removed.isAlive = false := rfl

theorem live_lt {h : Hier} {x : Nat} (hl : h.live x) : x < h.nbrs.length := by
  apply Classical.byContradiction
  intro hn
  unfold live get at hl
  rw [List.getElem?_eq_none (by omega)] at hl
  simp [removed_not_alive] at hl

theorem neighbors_eq (h : Hier) (x : Nat) :
    h.neighbors x = if (h.get x).isAlive then some (h.get x) else none := by
  unfold neighbors get
  cases e : h.nbrs[x]? with
  | none => simp [removed_not_alive]
  | some nb => simp [Option.filter]

theorem neighbors_live {h : Hier} {x : Nat} (hl : h.live x) : h.neighbors x = some (h.get x) := by
  rw [neighbors_eq]; unfold live at hl; simp [hl]

theorem neighbors_dead {h : Hier} {x : Nat} (hl : ¬ h.live x) : h.neighbors x = none := by
  rw [neighbors_eq]; unfold live at hl; simp [hl]

theorem isAlive_eq (h : Hier) (x : Nat) : h.isAlive x = (h.get x).isAlive := by
  unfold isAlive get
  cases e : h.nbrs[x]? with
  | none => simp [removed_not_alive]
  | some nb => simp

theorem isAlive_iff (h : Hier) (x : Nat) : h.isAlive x = true ↔ h.live x := by
  rw [isAlive_eq]; rfl

@[simp] theorem length_put (h : Hier) (x : Nat) (nb : Neighbors) :
    (h.put x nb).nbrs.length = h.nbrs.length := by simp [put]

theorem get_put {h : Hier} {x : Nat} (hx : x < h.nbrs.length) (nb : Neighbors) (y : Nat) :
    (h.put x nb).get y = if y = x then nb else h.get y := by
  unfold put get
  simp only [List.getElem?_set]
  by_cases e : x = y
  · subst e; simp [hx]
  · simp [e]; intro e'; exact absurd e'.symm e

theorem ext_get {h h' : Hier} (hl : h.nbrs.length = h'.nbrs.length)
    (hg : ∀ x, h.get x = h'.get x) : h = h' := by
  cases h with | mk l => cases h' with | mk l' =>
  congr 1
  apply List.ext_getElem? 
  intro i
  have := hg i
  unfold get at this
  simp at hl this
  by_cases hi : i < l.length
  · rw [List.getElem?_eq_getElem hi, List.getElem?_eq_getElem (by omega)] at this ⊢
    simpa using this
  · rw [List.getElem?_eq_none (by omega), List.getElem?_eq_none (by omega)]

/-! ### Primitive computations -/

theorem nbrOf_live {h : Hier} {x : Nat} (hl : h.live x) (msg : String) :
    nbrOf x msg h = .ok (h.get x) h := by
  unfold nbrOf M.read; simp [neighbors_live hl]

theorem nbrOf_dead {h : Hier} {x : Nat} (hl : ¬ h.live x) (msg : String) :
    nbrOf x msg h = .fail (.panic msg) h := by
  unfold nbrOf M.read; simp [neighbors_dead hl]

theorem updNbr_live {h : Hier} {x : Nat} (hl : h.live x) (msg : String) (f : Neighbors → Neighbors) :
    updNbr x msg f h = .ok () (h.put x (f (h.get x))) := by
  unfold updNbr put; simp [neighbors_live hl]

theorem updNbr_dead {h : Hier} {x : Nat} (hl : ¬ h.live x) (msg : String)
    (f : Neighbors → Neighbors) : updNbr x msg f h = .fail (.panic msg) h := by
  unfold updNbr; simp [neighbors_dead hl]

theorem getParent_live {h : Hier} {x : Nat} (hl : h.live x) :
    (h.get x).getParent = .ok (h.get x).parent := by
  unfold Neighbors.getParent; unfold live at hl; simp [hl]

theorem nextSibling_live {h : Hier} {x : Nat} (hl : h.live x) :
    (h.get x).nextSibling = .ok (h.get x).next := by
  unfold Neighbors.nextSibling; unfold live at hl; simp [hl]

theorem firstChild_live {h : Hier} {x : Nat} (hl : h.live x) :
    (h.get x).firstChild = .ok (h.get x).first := by
  unfold Neighbors.firstChild; unfold live at hl; simp [hl]

theorem live_iff_prevCyc {h : Hier} {x : Nat} : h.live x ↔ ∃ v, (h.get x).prevCyc = some v := by
  unfold live Neighbors.isAlive; rw [Option.isSome_iff_exists]

theorem live_put {h : Hier} {x : Nat} (hx : x < h.nbrs.length) (nb : Neighbors) (y : Nat) :
    (h.put x nb).live y ↔ if y = x then nb.isAlive = true else h.live y := by
  unfold live; rw [get_put hx]; split <;> rfl

end Hier
end Treena
