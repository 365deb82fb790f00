import Verif.Proof.Complete
import Verif.Props.Consistency
import Verif.Props.Census
/-!
# Every consistent forest can be made, and only those (C73)

The converse of C05: the hypothesis `Consistent` of the other theorems is not weaker than "made by calls", and each
forest can be rearranged into each other one with the same live nodes.
-/
set_option autoImplicit false

namespace Treena
open Shape
variable {T : Type} {f g : Forest T} {cap : Nat}

/-- **C73**, rearranging.  Of two consistent forests with the same live nodes and data (and the same number of IDs
handed out), each can be made from the other by `detach` and `insert(_, LastChildOf(_))` alone; at most two such calls
per ID are needed, all of them succeed and none is harmful.  No order of siblings and no arrangement is out of reach. -/
theorem C73_rearrange (hf : Consistent f) (hg : Consistent g) (hd : f.data = g.data) :
    ∃ ops : List (Op T), (∀ op ∈ ops, op.isMove) ∧ ops.length ≤ 2 * g.issued ∧ Careful cap f ops ∧ Smooth cap f ops ∧
      Op.run cap f ops = g := by
  obtain ⟨s, hm⟩ := hf
  obtain ⟨s', hg⟩ := hg
  have hsz : s.size = s'.size := by rw [← hm.dataLen, ← hg.dataLen, hd]
  have hget : ∀ y, f.getData y = g.getData y := fun y => by unfold Forest.getData; rw [hd]
  have hal : s.alive = s'.alive := by
    funext x
    rw [← hm.dataAlive, ← hg.dataAlive, hget]
  obtain ⟨ops, h1, h2, h3⟩ := leads_rearrange cap hm hg hsz hal hget
  exact ⟨ops, h1, by unfold Forest.issued; rw [hg.dataLen]; exact h2, h3.careful, h3.smooth, h3.run⟩

/-- **C73**, building.  A forest value can be made from the empty forest by a history without harmful calls if and only
if it is consistent and has not more IDs than there can be.  `create_root`, `remove`, `detach` and
`insert(_, LastChildOf(_))` suffice for that, at most four calls per ID, all of them succeeding. -/
theorem C73_reachable_iff [Nonempty T] :
    ((∃ ops : List (Op T), Careful cap Forest.new ops ∧ Op.run cap Forest.new ops = g) ↔ Consistent g ∧ g.issued ≤ cap) ∧
    (Consistent g ∧ g.issued ≤ cap → ∃ ops : List (Op T), (∀ op ∈ ops, op.isBasic) ∧ ops.length ≤ 4 * g.issued ∧
      Careful cap Forest.new ops ∧ Smooth cap Forest.new ops ∧ Op.run cap Forest.new ops = g) := by
  have key : Consistent g ∧ g.issued ≤ cap → ∃ ops : List (Op T), (∀ op ∈ ops, op.isBasic) ∧ ops.length ≤ 4 * g.issued ∧
      Careful cap Forest.new ops ∧ Smooth cap Forest.new ops ∧ Op.run cap Forest.new ops = g := by
    rintro ⟨⟨s', hg⟩, hc⟩
    have hsz : g.issued = s'.size := hg.dataLen
    obtain ⟨ops, h1, h2, h3⟩ := leads_all (Classical.arbitrary T) hg (cap := cap) (by rw [← hsz]; exact hc)
    exact ⟨ops, h1, by rw [hsz]; exact h2, h3.careful, h3.smooth, h3.run⟩
  refine ⟨⟨?_, fun h => ?_⟩, key⟩
  · rintro ⟨ops, h1, rfl⟩
    exact ⟨run_careful ops _ new_consistent h1, (C52_within_capacity ⟨ops, rfl⟩).1⟩
  · obtain ⟨ops, _, _, h3, _, h5⟩ := key h
    exact ⟨ops, h3, h5⟩

/-! ### Non-vacuity -/

/-- The nine-node sample can be made with basic calls only. -/
example : ∃ ops : List (Op Nat), (∀ op ∈ ops, op.isBasic) ∧ Careful 100 Forest.new ops ∧
    Op.run 100 Forest.new ops = Sample.built := by
  obtain ⟨ops, h1, _, h3, _, h5⟩ := (C73_reachable_iff (cap := 100) (g := Sample.built)).2
    ⟨⟨_, Sample.models⟩, by decide⟩
  exact ⟨ops, h1, h3, h5⟩

/-- Each arrangement of the sample can be turned into the sample. -/
example (f : Forest Nat) (hf : Consistent f) (hd : f.data = Sample.built.data) :
    ∃ ops : List (Op Nat), (∀ op ∈ ops, op.isMove) ∧ Op.run 100 f ops = Sample.built := by
  obtain ⟨ops, h1, _, _, _, h5⟩ := C73_rearrange (cap := 100) hf ⟨_, Sample.models⟩ hd
  exact ⟨ops, h1, h5⟩

end Treena
