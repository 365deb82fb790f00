import Verif.Proof.DataSub
import Verif.Proof.ErrKeeps
import Verif.Props.Sample
import Verif.Spec.Careful
import Verif.Props.SampleRun
/-!
# Properties of all histories of calls (C03, C04, C34), and `NodeMut` (C35)

Histories (`Op.run`) are arbitrary sequences of calls of the mutating API, including calls that panic.
Nothing is assumed about the links.
-/
set_option autoImplicit false

namespace Treena
variable {T : Type}

/-- **C03** (fresh).  The history `ops1 ++ ops2` leads to a state in which the call `op` returns the new ID `id`:
then `id` was not live at any earlier moment (after `ops1`, for every way of splitting the history), it is the
next unissued ID, and it is live afterwards. -/
theorem C03_new_ids_are_fresh (cap : Nat) (ops1 ops2 : List (Op T)) (op : Op T) {id : Nat}
    (h : Op.newId cap (Op.run cap Forest.new (ops1 ++ ops2)) op = some id) :
    (Op.run cap Forest.new ops1).isAlive id = false ∧ (Op.run cap Forest.new ops1).issued ≤ id ∧
    (Op.run cap Forest.new (ops1 ++ ops2 ++ [op])).isAlive id = true := by
  have hsplit : Op.run cap (Forest.new : Forest T) (ops1 ++ ops2) = Op.run cap (Op.run cap Forest.new ops1) ops2 := by
    simp [Op.run]
  have hc1 : Coherent (Op.run cap (Forest.new : Forest T) ops1) := Reachable.coherent ⟨ops1, rfl⟩
  obtain ⟨hc, hl⟩ := run_evolves (cap := cap) ops2 _ hc1
  rw [← hsplit] at hc hl
  obtain ⟨h1, d, l, h2⟩ := newId_new _ op h hc
  have hle : (Op.run cap (Forest.new : Forest T) ops1).issued ≤ id := by rw [h1]; exact hl.issued
  refine ⟨?_, hle, ?_⟩
  · unfold Forest.isAlive
    rw [List.getElem?_eq_none hle]
  · have : Op.run cap (Forest.new : Forest T) (ops1 ++ ops2 ++ [op]) =
        Op.step cap (Op.run cap Forest.new (ops1 ++ ops2)) op := by simp [Op.run]
    rw [this]
    unfold Forest.isAlive
    rw [h2, h1]
    simp [Forest.issued]

/-- **C03** (no resurrection).  An issued ID that is dead at some moment of a history is dead ever after. -/
theorem C03_dead_forever (cap : Nat) (ops1 ops2 : List (Op T)) {x : Nat}
    (hx : x < (Op.run cap Forest.new ops1).issued) (hd : (Op.run cap Forest.new ops1).isAlive x = false) :
    (Op.run cap (Op.run cap Forest.new ops1) ops2).isAlive x = false :=
  (run_evolves (cap := cap) ops2 _ (Reachable.coherent ⟨ops1, rfl⟩)).2.dead x hx hd

/-- C03: hence no two creating calls of a history return the same ID. -/
theorem C03_new_ids_distinct (cap : Nat) (ops1 ops2 : List (Op T)) (op op' : Op T) {x y : Nat}
    (h1 : Op.newId cap (Op.run cap Forest.new ops1) op = some x)
    (h2 : Op.newId cap (Op.run cap Forest.new (ops1 ++ [op] ++ ops2)) op' = some y) : x < y := by
  obtain ⟨_, h3, h4⟩ := C03_new_ids_are_fresh cap (ops1 ++ [op]) ops2 op' h2
  obtain ⟨_, _, h5⟩ := C03_new_ids_are_fresh cap ops1 [] op (by simpa using h1)
  simp only [List.append_nil] at h5
  rcases Nat.lt_or_ge x (Op.run cap (Forest.new : Forest T) (ops1 ++ [op])).issued with h | h
  · omega
  · unfold Forest.isAlive at h5
    rw [List.getElem?_eq_none h] at h5
    cases h5

theorem coherent_accessors {f : Forest T} (hc : Coherent f) :
    f.data.length = f.hier.nbrs.length ∧
    ∀ x, (f.getData x).isSome = f.isAlive x ∧ f.hier.isAlive x = f.isAlive x ∧
      (f.isAlive x = true → (∃ d, f.nodeData x = .ok d) ∧ (∃ nb, f.nbr x = .ok nb) ∧ (∃ p, f.parentId x = .ok p) ∧
        (∃ n, f.nextSiblingId x = .ok n) ∧ (∃ c, f.firstChildId x = .ok c)) := by
  have key : ∀ x, (f.getData x).isSome = f.isAlive x := by
    intro x
    unfold Forest.getData Forest.isAlive
    cases h : f.data[x]? with
    | none => rfl
    | some o => rfl
  refine ⟨hc.len, fun x => ⟨key x, (hc.live x).symm, fun hx => ?_⟩⟩
  have hh : f.hier.isAlive x = true := by rw [← hc.live]; exact hx
  have hn : ∃ nb, f.hier.neighbors x = some nb ∧ nb.isAlive = true := by
    unfold Hier.isAlive at hh
    unfold Hier.neighbors
    cases h : f.hier.nbrs[x]? with
    | none => rw [h] at hh; cases hh
    | some nb =>
      rw [h] at hh
      exact ⟨nb, by simp only [Option.filter, hh, if_true], hh⟩
  obtain ⟨nb, hnb, hal⟩ := hn
  have hnbr : f.nbr x = .ok nb := by unfold Forest.nbr; rw [hnb]; rfl
  refine ⟨?_, ⟨nb, hnbr⟩, ?_, ?_, ?_⟩
  · have := key x
    rw [hx] at this
    obtain ⟨d, hd⟩ := Option.isSome_iff_exists.1 this
    exact ⟨d, by simp [Forest.nodeData, hd]⟩
  · refine ⟨nb.parent, ?_⟩
    unfold Forest.parentId; rw [hnbr]
    simp [Neighbors.getParent, hal]
  · refine ⟨nb.next, ?_⟩
    unfold Forest.nextSiblingId; rw [hnbr]
    simp [Neighbors.nextSibling, hal]
  · refine ⟨nb.first, ?_⟩
    unfold Forest.firstChildId; rw [hnbr]
    simp [Neighbors.firstChild, hal]

/-- **C04**.  In every reachable state the two storages have the same length, `data(id)` is `Some` exactly when
`is_alive(id)` and exactly when the structure regards `id` as live; so on a live node the accessors of `Node` do
not hit the panics "the node has been checked to be alive". -/
theorem C04_liveness_agrees {cap : Nat} {f : Forest T} (hr : Reachable cap f) :
    f.data.length = f.hier.nbrs.length ∧
    ∀ x, (f.getData x).isSome = f.isAlive x ∧ f.hier.isAlive x = f.isAlive x ∧
      (f.isAlive x = true → (∃ d, f.nodeData x = .ok d) ∧ (∃ nb, f.nbr x = .ok nb) ∧ (∃ p, f.parentId x = .ok p) ∧
        (∃ n, f.nextSiblingId x = .ok n) ∧ (∃ c, f.firstChildId x = .ok c)) :=
  coherent_accessors hr.coherent

/-! ### C34: data -/

/-- **C34**.  In every forest state whatsoever, no call except removals and writes through `data_mut` changes a
stored datum: the data are extended at the end at most.  This includes calls that panic or return errors. -/
theorem C34_structure_keeps_data (cap : Nat) (f : Forest T) (op : Op T) (h : op.structural = true) :
    (∃ l, (Op.step cap f op).data = f.data ++ l) ∧
    ∀ x, x < f.issued → (Op.step cap f op).getData x = f.getData x := by
  obtain ⟨l, hl⟩ := (step_both (cap := cap) f op h).2
  refine ⟨⟨l, hl⟩, fun x hx => ?_⟩
  unfold Forest.issued at hx
  unfold Forest.getData
  rw [hl, List.getElem?_append_left hx]

/-- **C34**.  Removals, in every forest state, for every callback, panicking or not: each datum is afterwards
unchanged or gone. -/
theorem C34_removal_keeps_surviving_data (cap : Nat) (f : Forest T) (op : Op T)
    (h : op.structural = false) (hs : ∀ id v, op ≠ .setData id v) :
    (Op.step cap f op).issued = f.issued ∧
    ∀ x, (Op.step cap f op).getData x = f.getData x ∨ (Op.step cap f op).getData x = none := by
  cases op with
  | setData id v => exact absurd rfl (hs id v)
  | remove x => exact remove_sub x f
  | removeHooked S hook c x => exact removeHooked_sub hook x (f, c)
  | removeHookedPanicSafe S hook c x => exact removeHookedPanicSafe_sub hook x (f, c)
  | _ => cases h

/-- **C34**.  Writing through `data_mut(id)`: there is a reference exactly if `data(id)` is `Some`; then only
`data(id)` changes; links never change. -/
theorem C34_data_mut (f : Forest T) (id : Nat) (v : T) :
    ∃ f', Forest.setData id v f = .ok (f.getData id).isSome f' ∧ f'.hier = f.hier ∧
      (∀ x, x ≠ id → f'.getData x = f.getData x) ∧
      f'.getData id = (f.getData id).map fun _ => v := by
  unfold Forest.setData
  cases h : f.getData id with
  | none => exact ⟨f, by simp, rfl, fun _ _ => rfl, by simp [h]⟩
  | some d =>
    have hlt : id < f.data.length := by
      unfold Forest.getData at h
      rcases Nat.lt_or_ge id f.data.length with h1 | h1
      · exact h1
      · rw [List.getElem?_eq_none h1] at h; cases h
    refine ⟨_, rfl, rfl, fun x hx => ?_, ?_⟩
    · simp only [Forest.getData, List.getElem?_set]
      rw [if_neg (fun e => hx e.symm)]
    · simp [Forest.getData, hlt]

/-! ### C35: `NodeMut` -/

/-- **C35**.  The methods of `NodeMut` have, in every forest state, exactly the effect and result of the
corresponding methods of `Forest`. -/
theorem C35_node_mut (cap : Nat) (self x : Nat) (d : T) (dest : AdoptAs) (f : Forest T) :
    NodeMut.create cap self d dest f = Forest.createInsert cap d (adoptPlace self dest) f ∧
    NodeMut.tryAdopt self x dest f = Forest.insert x (adoptPlace self dest) f ∧
    NodeMut.detach self f = Forest.detach self f ∧
    NodeMut.detachSingle self f = Forest.detachSingle self f ∧
    NodeMut.remove self f = Forest.remove self f ∧
    (∀ (S : Type) (hook : Forest.Hook S T) (c : S),
      NodeMut.removeHooked hook self (f, c) = Forest.removeHooked hook self (f, c) ∧
      NodeMut.removeHookedPanicSafe hook self (f, c) = Forest.removeHookedPanicSafe hook self (f, c)) := by
  have he : dest.insertWithAnchor self = adoptPlace self dest := by cases dest <;> rfl
  refine ⟨?_, ?_, rfl, rfl, rfl, fun _ _ _ => ⟨rfl, rfl⟩⟩
  · unfold NodeMut.create; rw [he]
  · unfold NodeMut.tryAdopt; rw [he]; rfl

/-- **C35**.  `adopt` succeeds exactly if `try_adopt` returns `Ok`, then with the same effect; if `try_adopt`
returns an error, `adopt` panics and leaves the forest unchanged; if `try_adopt` panics, `adopt` panics alike. -/
theorem C35_adopt (self x : Nat) (dest : AdoptAs) (f : Forest T) :
    (∀ f', NodeMut.tryAdopt self x dest f = .ok (.ok ()) f' → NodeMut.adopt self x dest f = .ok () f') ∧
    (∀ e f', NodeMut.tryAdopt self x dest f = .ok (.error e) f' →
      f' = f ∧ ∃ msg, NodeMut.adopt self x dest f = .fail (.panic msg) f) ∧
    (∀ e f', NodeMut.tryAdopt self x dest f = .fail e f' → NodeMut.adopt self x dest f = .fail e f') := by
  refine ⟨fun f' h => ?_, fun e f' h => ?_, fun e f' h => ?_⟩
  · simp only [NodeMut.adopt, M.run_bind, h]; rfl
  · have h0 : Forest.insert x (dest.insertWithAnchor self) f = .ok (.error e) f' := h
    have : f' = f := onHier_errKeeps (Hier.insert_errKeeps x _) f e f' h0
    subst this
    refine ⟨rfl, ?_, ?_⟩
    · exact "[precondition] structure to be made should be valid"
    · simp only [NodeMut.adopt, M.run_bind, h]; rfl
  · simp only [NodeMut.adopt, M.run_bind, h]

/-! ### Concrete histories -/

/-- A history with a removal, a failing call (the ID 1 is dead) and further creations: the IDs handed out are
0, 1, then 2, and 1 stays dead. -/
example : Op.newId 100 (Op.run 100 (Forest.new : Forest Nat) [.createRoot 10, .createInsert 11 (.lastChildOf 0)])
      (.createRoot 12) = some 2 ∧
    (Op.run 100 (Forest.new : Forest Nat)
      [.createRoot 10, .createInsert 11 (.lastChildOf 0), .remove 1, .detach 1, .createRoot 12]).isAlive 1 = false := by
  decide

example : Reachable 100 Sample.built :=
  ⟨[.createRoot 10, .createInsert 11 (.lastChildOf 0), .createInsert 12 (.lastChildOf 0),
    .createInsert 13 (.lastChildOf 0), .createInsert 14 (.lastChildOf 2), .createInsert 15 (.lastChildOf 2),
    .createRoot 16, .createRoot 17, .remove 7], rfl⟩

example : (Op.step 100 Sample.built (.insert 4 (.firstChildOf 1))).getData 4 = some 14 :=
  ((C34_structure_keeps_data 100 Sample.built (.insert 4 (.firstChildOf 1)) rfl).2 4 (by decide)).trans (by decide)

example : ∃ f', NodeMut.adopt 6 2 .lastChild Sample.built = .ok () f' := by
  have h : ∃ f', NodeMut.tryAdopt 6 2 .lastChild Sample.built = .ok (.ok ()) f' := ⟨_, rfl⟩
  obtain ⟨f', h⟩ := h
  exact ⟨f', (C35_adopt 6 2 .lastChild Sample.built).1 f' h⟩

/-! ### The hypotheses can be met

Each example applies the theorem named in its comment to a concrete forest. -/

section
/-- `C03_dead_forever`: node 7, removed by the history of the sample forest; afterwards anything. -/
example (later : List (Op Nat)) : (Op.run 100 (Op.run 100 Forest.new Sample.ops) later).isAlive 7 = false :=
  C03_dead_forever 100 Sample.ops later (x := 7) (by decide) (by decide)

/-- `C03_new_ids_are_fresh`: the next ID is 8. -/
example := C03_new_ids_are_fresh 100 Sample.ops [.detach 2] (.createRoot 42) (id := 8) (by decide)

/-- `C03_new_ids_distinct`: two creations with a removal between. -/
example : 8 < 9 := C03_new_ids_distinct 100 Sample.ops [.remove 8] (.createRoot 42) (.createRoot 43) (x := 8) (y := 9) (by decide) (by decide)

/-- `C04_liveness_agrees`: the sample forest, and a destroyed one. -/
example := C04_liveness_agrees Sample.reachable

/-- `C04_liveness_agrees`: the sample forest, and a destroyed one (continued). -/
example := C04_liveness_agrees Sample.reachable_spoilt

/-- `C34_removal_keeps_surviving_data`: removal of node 2. -/
example := C34_removal_keeps_surviving_data 100 Sample.built (.remove 2) rfl (by simp)

end

end Treena
