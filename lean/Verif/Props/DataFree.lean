import Verif.Proof.MapData
import Verif.Props.Sample
import Verif.Props.SampleRun
/-!
# The structure never depends on the data (C49)
-/
set_option autoImplicit false

namespace Treena
variable {T U : Type} {cap : Nat}

theorem map2_state {σ τ α β : Type} (G : α → β) (F : σ → τ) (r : Res σ α) : (r.map2 G F).state = F r.state := by
  cases r <;> rfl

theorem map2_valueOf {σ τ α : Type} (F : σ → τ) (r : Res σ α) : Op.valueOf (r.map2 idf F) = Op.valueOf r := by
  cases r <;> rfl

theorem map2_plain {σ τ α β : Type} (G : α → β) (F : σ → τ) (r : Res σ α) :
    Op.succeeds.plain (r.map2 G F) = Op.succeeds.plain r := by
  cases r <;> rfl

theorem map2_returns {σ τ α β : Type} (G : α → β) (F : σ → τ) (r : Res σ α) :
    Op.returns.plain (r.map2 G F) = Op.returns.plain r := by
  cases r <;> rfl

theorem map2_noErr {σ τ α : Type} (F : σ → τ) (r : Res σ (Except StructureError α)) :
    Op.succeeds.noErr (r.map2 idf F) = Op.succeeds.noErr r := by
  rcases r with ⟨_ | _, _⟩ | _ <;> rfl

/-- **C49**, one call, in any state of the forest, consistent or not, whether the call returns or panics: replacing
all data (in the forest and in the arguments of the call) by their image under any `g` changes nothing but the data:
the resulting forest is the image of the original result (same IDs, links, liveness), the call returns / fails
exactly if the original one does, with the same ID. -/
theorem C49_one_call (g : T → U) {op : Op T} {op' : Op U} (h : Op.Same g op op') (f : Forest T) :
    Op.step cap (f.mapData g) op' = (Op.step cap f op).mapData g ∧
    Op.newId cap (f.mapData g) op' = Op.newId cap f op ∧
    op'.succeeds cap (f.mapData g) = op.succeeds cap f ∧
    op'.returns cap (f.mapData g) = op.returns cap f := by
  cases h with
  | createRoot d =>
    have h := createRoot_comm g cap d f
    simp only [Op.step, Op.newId, Op.succeeds, Op.returns]
    rw [h]
    exact ⟨map2_state .., map2_valueOf .., map2_plain .., map2_returns ..⟩
  | createInsert d dest =>
    have h := createInsert_comm g cap d dest f
    simp only [Op.step, Op.newId, Op.succeeds, Op.returns]
    rw [h]
    exact ⟨map2_state .., map2_valueOf .., map2_plain .., map2_returns ..⟩
  | setData x v =>
    have h := setData_comm g x v f
    simp only [Op.step, Op.newId, Op.succeeds, Op.returns]
    rw [h]
    exact ⟨map2_state .., trivial, map2_plain .., map2_returns ..⟩
  | insert x dest =>
    have h := onHier_comm g (Hier.insert x dest) f
    simp only [Op.step, Op.newId, Op.succeeds, Op.returns, Forest.insert]
    rw [h]
    exact ⟨map2_state .., trivial, map2_noErr .., map2_returns ..⟩
  | detach x =>
    have h := onHier_comm g (Hier.detach x) f
    simp only [Op.step, Op.newId, Op.succeeds, Op.returns, Forest.detach]
    rw [h]
    exact ⟨map2_state .., trivial, map2_plain .., map2_returns ..⟩
  | detachSingle x =>
    have h := onHier_comm g (Hier.detachSingle x) f
    simp only [Op.step, Op.newId, Op.succeeds, Op.returns, Forest.detachSingle]
    rw [h]
    exact ⟨map2_state .., trivial, map2_noErr .., map2_returns ..⟩
  | remove x =>
    have h := remove_comm g x f
    simp only [Op.step, Op.newId, Op.succeeds, Op.returns]
    rw [h]
    exact ⟨map2_state .., trivial, map2_plain .., map2_returns ..⟩
  | removeHooked hook hook' c x hh =>
    have h := removeWith_comm g (closeForce_comm g hh) x (f, c)
    simp only [Op.step, Op.newId, Op.succeeds, Op.returns, Forest.removeHooked, Op.forestOf]
    rw [show (f.mapData g, c) = mapFst g (f, c) from rfl, h]
    exact ⟨by rw [map2_state]; rfl, trivial, map2_plain .., map2_returns ..⟩
  | removeHookedPanicSafe hook hook' c x hh =>
    have h := removeWith_comm g (closePanicSafe_comm g hh) x (f, c)
    simp only [Op.step, Op.newId, Op.succeeds, Op.returns, Forest.removeHookedPanicSafe, Op.forestOf]
    rw [show (f.mapData g, c) = mapFst g (f, c) from rfl, h]
    exact ⟨by rw [map2_state]; rfl, trivial, map2_plain .., map2_returns ..⟩
  | cloneLocal cl cl' hook c x hh =>
    have h := cloneLocal_comm g cap hh hook x (f, c)
    simp only [Op.step, Op.newId, Op.succeeds, Op.returns, Op.forestOf]
    rw [show (f.mapData g, c) = mapFst g (f, c) from rfl, h]
    exact ⟨by rw [map2_state]; rfl, map2_valueOf .., map2_plain .., map2_returns ..⟩
  | cloneForeign cl cl' hook c fsrc x hh =>
    have h := cloneForeign_comm g cap hh hook fsrc x (f, c)
    simp only [Op.step, Op.newId, Op.succeeds, Op.returns, Op.forestOf]
    rw [show (f.mapData g, c) = mapFst g (f, c) from rfl, h]
    exact ⟨by rw [map2_state]; rfl, map2_valueOf .., map2_plain .., map2_returns ..⟩
  | nodeCreate self d dest =>
    have h := createInsert_comm g cap d (dest.insertWithAnchor self) f
    simp only [Op.step, Op.newId, Op.succeeds, Op.returns, NodeMut.create, mapData_isAlive]
    rw [h]
    refine ⟨?_, ?_, by rw [map2_plain], map2_returns ..⟩
    · split
      · exact map2_state ..
      · rfl
    · split
      · exact map2_valueOf ..
      · rfl
  | tryAdopt self x dest =>
    have h := onHier_comm g (Hier.insert x (dest.insertWithAnchor self)) f
    simp only [Op.step, Op.newId, Op.succeeds, Op.returns, NodeMut.tryAdopt, mapData_isAlive]
    rw [h]
    refine ⟨?_, trivial, by rw [map2_noErr], map2_returns ..⟩
    split
    · exact map2_state ..
    · rfl
  | adopt self x dest =>
    have h := adopt_comm g self x dest f
    simp only [Op.step, Op.newId, Op.succeeds, Op.returns, mapData_isAlive]
    rw [h]
    refine ⟨?_, trivial, by rw [map2_plain], map2_returns ..⟩
    split
    · exact map2_state ..
    · rfl
  | nest d calls =>
    have h := nestBuild_comm g cap d calls f
    simp only [Op.step, Op.newId, Op.succeeds, Op.returns]
    rw [h]
    exact ⟨map2_state .., map2_valueOf .., map2_plain .., map2_returns ..⟩
  | chain d calls =>
    have h := chainBuild_comm g cap d calls f
    simp only [Op.step, Op.newId, Op.succeeds, Op.returns]
    rw [h]
    exact ⟨map2_state .., map2_valueOf .., map2_plain .., map2_returns ..⟩

/-- **C49**, histories: two histories that differ only in the data produce forests that differ only in the data,
accordingly.  In particular (`U := Unit`) IDs, links and liveness do not depend on the data at all. -/
theorem C49_histories (g : T → U) {ops : List (Op T)} {ops' : List (Op U)} (h : SameHistory g ops ops')
    (f : Forest T) : Op.run cap (f.mapData g) ops' = (Op.run cap f ops).mapData g := by
  induction h generalizing f with
  | nil => rfl
  | cons h _ ih =>
    simp only [Op.run, List.foldl_cons]
    rw [(C49_one_call g h f).1]
    exact ih _

/-- C49, reading: accessors and iterators of `f.mapData g` are those of `f`; the data are the images. -/
theorem C49_reading (g : T → U) (f : Forest T) (x : Nat) :
    (f.mapData g).isAlive x = f.isAlive x ∧ (f.mapData g).getData x = (f.getData x).map g ∧
    (f.mapData g).parentId x = f.parentId x ∧ (f.mapData g).nextSiblingId x = f.nextSiblingId x ∧
    (f.mapData g).prevSiblingId x = f.prevSiblingId x ∧ (f.mapData g).firstChildId x = f.firstChildId x ∧
    (f.mapData g).lastChildId x = f.lastChildId x ∧
    (f.mapData g).depthFirstTraverse x = f.depthFirstTraverse x ∧
    (∀ st, (f.mapData g).dftNext st = f.dftNext st ∧ (f.mapData g).dftNextBack st = f.dftNextBack st) ∧
    (∀ um, Forest.breadthFirstTraverse um (f.mapData g) x = Forest.breadthFirstTraverse um f x ∧
      ∀ st, Forest.bftNext um (f.mapData g) st = Forest.bftNext um f st) := by
  have hn : ∀ y, (f.mapData g).node y = f.node y := mapData_node g f
  have hi : ∀ {σ : Type} (mk : Nat → Hier → R σ), (f.mapData g).iterNew x mk = f.iterNew x mk := by
    intro σ mk
    simp only [Forest.iterNew, Forest.nodeOrPanic, hn]; rfl
  have he : ∀ {ι σ : Type} (idOf : ι → Nat) (r : R (Option ι × σ)), (f.mapData g).emit idOf r = f.emit idOf r := by
    intro ι σ idOf r
    unfold Forest.emit Forest.nodeAt
    rcases r with _ | ⟨_ | _, _⟩
    · rfl
    · rfl
    · simp only [hn]
  exact ⟨mapData_isAlive g f x, mapData_getData g f x, rfl, rfl, rfl, rfl, rfl, hi _, fun st => ⟨he _ _, he _ _⟩,
    fun um => ⟨hi _, fun st => he _ _⟩⟩

/-- The sample with all data forgotten. -/
example : SameHistory (fun _ : Nat => ()) [.createRoot 10, .createInsert 11 (.lastChildOf 0),
      .removeHooked Nat (fun n _ => .ok (n + 1)) 0 1]
    [.createRoot (), .createInsert () (.lastChildOf 0), .removeHooked Nat (fun n _ => .ok (n + 1)) 0 1] :=
  .cons (.createRoot 10) (.cons (.createInsert 11 _) (.cons (.removeHooked _ _ _ _ fun _ _ => rfl) .nil))

/-! ### The hypotheses can be met

Each example applies the theorem named in its comment to a concrete forest. -/

section
/-- `C49_histories`: a history of numbers and the same of strings. -/
example := C49_histories (cap := 100) (fun n : Nat => toString n)
  (.cons (.createRoot 5) (.cons (.createInsert 7 (.lastChildOf 0)) (.cons (.detach 1) .nil))) Forest.new

/-- `C49_one_call`: one call. -/
example := C49_one_call (cap := 100) (fun n : Nat => toString n) (.createInsert 7 (.lastChildOf 2)) Sample.built

end

end Treena
