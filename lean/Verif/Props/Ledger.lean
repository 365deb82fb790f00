import Verif.Proof.Ledger
import Verif.Props.Sample
import Verif.Props.SampleRun
/-!
# C77: data are conserved in every history

Double-entry bookkeeping: the data that ever entered a forest are exactly the data it still holds and those that left it, each
as often.  What leaves, leaves to the hook of a removal (each datum once), is dropped by `remove`, or is overwritten through
`data_mut`; what enters is what the caller passed (or copies, for the cloning calls).  No datum is lost, duplicated or made up,
also when calls panic.
-/
set_option autoImplicit false

namespace Treena
variable {T : Type} {cap : Nat}

/-- C77: in every history, from any forest: data held at first and entered since = data held and left since. -/
theorem C77_books (f : Forest T) (ops : List (Op T)) :
    (f.held ++ Op.allEntered cap f ops).Perm ((Op.run cap f ops).held ++ Op.allLeft cap f ops) := books ops f

/-- C77: in every history of a new forest, what entered is what it holds and what left. -/
theorem C77_books_new (ops : List (Op T)) :
    (Op.allEntered cap Forest.new ops).Perm ((Op.run cap Forest.new ops).held ++ Op.allLeft cap Forest.new ops) :=
  books ops Forest.new

/-- C77: the same in a release build. -/
theorem C77_books_release (f : Forest T) (ops : List (Op T)) :
    (f.held ++ Release.allEntered cap f ops).Perm ((Release.run cap f ops).held ++ Release.allLeft cap f ops) :=
  release_books ops f

/-- C77: a removal, in whatever forest and with whatever hook, also one that panics: the data of some nodes alive before are
given to the hook, each once, and are gone; the other data stay where they are. -/
theorem C77_handed_over (f : Forest T) {S : Type} (hook : Forest.Hook S T) (c : S) (x : Nat) :
    HandedOver f (Forest.removeHooked hook x (f, c)).state.1 (Forest.removeHooked (watched hook) x (f, (c, []))).state.2.2 ∧
    HandedOver f (Forest.removeHookedPanicSafe hook x (f, c)).state.1
      (Forest.removeHookedPanicSafe (watched hook) x (f, (c, []))).state.2.2 ∧
    HandedOver f (Release.Forest.removeHookedPanicSafe hook x (f, c)).state.1
      (Release.Forest.removeHookedPanicSafe (watched hook) x (f, (c, []))).state.2.2 :=
  ⟨(took_step (removeWith_took (closeForce_took hook) x) (removeWith_unwatch (closeForce_unwatch hook) x)).1,
   (took_step (removeWith_took (closePanicSafe_took hook) x) (removeWith_unwatch (closePanicSafe_unwatch hook) x)).1,
   (release_panicSafe (cap := 0) hook c x f).1⟩

/-- C77: writing down what the hook is given changes nothing else: same outcome, same forest, same captured state. -/
theorem C77_watched (f : Forest T) {S : Type} (hook : Forest.Hook S T) (c : S) (l : List T) (x : Nat) :
    Forest.removeHooked hook x (f, c) =
      (match Forest.removeHooked (watched hook) x (f, (c, l)) with
        | .ok u (f', s') => .ok u (f', s'.1)
        | .fail e (f', s') => .fail e (f', s'.1)) ∧
    Forest.removeHookedPanicSafe hook x (f, c) =
      (match Forest.removeHookedPanicSafe (watched hook) x (f, (c, l)) with
        | .ok u (f', s') => .ok u (f', s'.1)
        | .fail e (f', s') => .fail e (f', s'.1)) := by
  refine ⟨(removeWith_unwatch (closeForce_unwatch hook) x (f, (c, l))).trans ?_,
    (removeWith_unwatch (closePanicSafe_unwatch hook) x (f, (c, l))).trans ?_⟩
  · show _ = match (generalizing := false) Forest.removeWith (Forest.closeForce (watched hook)) x (f, (c, l)) with
        | .ok u (f', s') => Res.ok u (f', s'.1)
        | .fail e (f', s') => Res.fail e (f', s'.1)
    rcases Forest.removeWith (Forest.closeForce (watched hook)) x (f, (c, l)) with ⟨u, f', s'⟩ | ⟨e, f', s'⟩ <;> rfl
  · show _ = match (generalizing := false) Forest.removeWith (Forest.closePanicSafe (watched hook)) x (f, (c, l)) with
        | .ok u (f', s') => Res.ok u (f', s'.1)
        | .fail e (f', s') => Res.fail e (f', s'.1)
    rcases Forest.removeWith (Forest.closePanicSafe (watched hook)) x (f, (c, l)) with ⟨u, f', s'⟩ | ⟨e, f', s'⟩ <;> rfl

/-- The call copies data with `T::clone`. -/
def Op.clones : Op T → Bool
  | .cloneLocal .. => true
  | .cloneForeign .. => true
  | _ => false

theorem entered_of_adds {α : Type} {f : Forest T} {op : Op T} {m : M (Forest T) α}
    (h : Adds (fun f : Forest T => f.data) op.offers m) (hs : op.step cap f = (m f).state) (hn : ∀ x v, op ≠ .setData x v) :
    op.entered cap f <+: op.offers ∧ ((Op.valueOf (m f)).isSome → op.entered cap f = op.offers) := by
  have : op.entered cap f = ((op.step cap f).data.drop f.data.length).filterMap fun o => o := by
    cases op <;> first | rfl | exact absurd rfl (hn _ _)
  rw [this, hs]
  exact adds_entered h

theorem entered_nil {f : Forest T} {op : Op T} (hn : ∀ x v, op ≠ .setData x v)
    (h : (op.step cap f).data.length = f.data.length) : op.entered cap f = [] := by
  have : op.entered cap f = ((op.step cap f).data.drop f.data.length).filterMap fun o => o := by
    cases op <;> first | rfl | exact absurd rfl (hn _ _)
  rw [this]; exact held_same_len h

/-- C77: the data that enter in a call that does not copy are the first of those the caller passes, in that order, and all of
them if the call creates nodes and returns. -/
theorem C77_entered (f : Forest T) (op : Op T) (hc : op.clones = false) :
    op.entered cap f <+: op.offers ∧ ((op.newId cap f).isSome → op.entered cap f = op.offers) := by
  cases op with
  | createRoot d => exact entered_of_adds (adds_createRoot d) rfl nofun
  | createInsert d dest => exact entered_of_adds (adds_momo d dest) rfl nofun
  | nest d calls => exact entered_of_adds (adds_nestBuild d calls) rfl nofun
  | chain d calls => exact entered_of_adds (adds_chainBuild d calls) rfl nofun
  | nodeCreate self d dest =>
    by_cases ha : f.isAlive self = true
    · have := entered_of_adds (cap := cap) (f := f) (op := .nodeCreate self d dest) (adds_momo d (dest.insertWithAnchor self))
        (by simp only [Op.step, if_pos ha]; rfl) nofun
      refine ⟨this.1, fun h => this.2 ?_⟩
      simp only [Op.newId, if_pos ha] at h
      exact h
    · rw [entered_nil nofun (by simp only [Op.step, if_neg ha])]
      exact ⟨List.nil_prefix, by simp [Op.newId, if_neg ha]⟩
  | setData x v =>
    refine ⟨?_, by simp [Op.newId]⟩
    simp only [Op.entered, Op.offers]
    split
    · exact List.prefix_rfl
    · exact List.nil_prefix
  | cloneLocal => simp [Op.clones] at hc
  | cloneForeign => simp [Op.clones] at hc
  | remove x =>
    rcases step_removal (cap := cap) f (.remove x) with ⟨⟨K, -, -, -, hlen, -⟩, -⟩ | ⟨_, _, h⟩ | ⟨h, -⟩
    · rw [entered_nil nofun hlen]; exact ⟨List.nil_prefix, by simp [Op.newId]⟩
    · cases h
    · simp [Op.structural] at h
  | removeHooked S hook c x =>
    rcases step_removal (cap := cap) f (.removeHooked S hook c x) with ⟨⟨K, -, -, -, hlen, -⟩, -⟩ | ⟨_, _, h⟩ | ⟨h, -⟩
    · rw [entered_nil nofun hlen]; exact ⟨List.nil_prefix, by simp [Op.newId]⟩
    · cases h
    · simp [Op.structural] at h
  | removeHookedPanicSafe S hook c x =>
    rcases step_removal (cap := cap) f (.removeHookedPanicSafe S hook c x) with ⟨⟨K, -, -, -, hlen, -⟩, -⟩ | ⟨_, _, h⟩ | ⟨h, -⟩
    · rw [entered_nil nofun hlen]; exact ⟨List.nil_prefix, by simp [Op.newId]⟩
    · cases h
    · simp [Op.structural] at h
  | insert x dest =>
    rw [entered_nil nofun (by simp only [Op.step, Forest.insert]; rw [onHier_data])]
    exact ⟨List.nil_prefix, by simp [Op.newId]⟩
  | detach x =>
    rw [entered_nil nofun (by simp only [Op.step, Forest.detach]; rw [onHier_data])]
    exact ⟨List.nil_prefix, by simp [Op.newId]⟩
  | detachSingle x =>
    rw [entered_nil nofun (by simp only [Op.step, Forest.detachSingle]; rw [onHier_data])]
    exact ⟨List.nil_prefix, by simp [Op.newId]⟩
  | tryAdopt self x dest =>
    rw [entered_nil nofun (by simp only [Op.step, NodeMut.tryAdopt]; split <;> simp [onHier_data])]
    exact ⟨List.nil_prefix, by simp [Op.newId]⟩
  | adopt self x dest =>
    have key : (NodeMut.adopt self x dest f).state.data = f.data := by
      have h : Adds (fun f : Forest T => f.data) [] (NodeMut.adopt (T := T) self x dest) := by
        unfold NodeMut.adopt NodeMut.tryAdopt
        refine Adds.bind (l := []) (adds_onHier _) fun r => ?_
        split
        · exact Adds.panic _ _
        · exact Adds.pure _
      have h := h f
      cases hm : NodeMut.adopt self x dest f with
      | ok a f' => rw [hm] at h; simpa [Res.state] using h
      | fail e f' =>
        rw [hm] at h
        obtain ⟨l, hl, e⟩ := h
        rw [List.prefix_nil] at hl
        subst hl
        simpa [Res.state] using e
    rw [entered_nil nofun (by simp only [Op.step]; split <;> simp [key])]
    exact ⟨List.nil_prefix, by simp [Op.newId]⟩

theorem mem_entered {f : Forest T} {op : Op T} (hn : ∀ x v, op ≠ .setData x v) {d : T} (h : d ∈ op.entered cap f) :
    some d ∈ (op.step cap f).data := by
  have : op.entered cap f = ((op.step cap f).data.drop f.data.length).filterMap fun o => o := by
    cases op <;> first | rfl | exact absurd rfl (hn _ _)
  rw [this] at h
  obtain ⟨o, ho, rfl⟩ := List.mem_filterMap.1 h
  exact List.mem_of_mem_drop ho

/-- C77: what enters in a local clone are copies: a property that all data of the forest have and that copies inherit, is had by
all data that enter. -/
theorem C77_entered_copies_local (f : Forest T) {S : Type} (cl : T → Option T) (hook : Forest.MapHook S) (c : S) (x : Nat)
    (P : T → Prop) (hf : ∀ d ∈ f.held, P d) (hcl : ∀ d v, P d → cl d = some v → P v) :
    ∀ d ∈ (Op.cloneLocal S cl hook c x).entered cap f, P d := by
  intro d hd
  have hall : AllData P f.data := fun d hd => hf d (List.mem_filterMap.2 ⟨some d, hd, rfl⟩)
  exact (cloneLocal_pkeeps (cap := cap) hook x hcl (f, c) hall).1 d (mem_entered nofun hd)

/-- C77: what enters in a clone from another forest are copies of data of that forest. -/
theorem C77_entered_copies_foreign (f : Forest T) {S : Type} (cl : T → Option T) (hook : Forest.MapHook S) (c : S)
    (fsrc : Forest T) (x : Nat) :
    ∀ d ∈ (Op.cloneForeign S cl hook c fsrc x).entered cap f, ∃ s ∈ fsrc.held, cl s = some d := by
  intro d hd
  have h := (cloneForeign_pkeeps (cap := cap) (n := f.data.length) (P := fun d => ∃ s ∈ fsrc.held, cl s = some d) (cl := cl) hook
    fsrc x (fun d v hd hv => ⟨d, List.mem_filterMap.2 ⟨some d, hd, rfl⟩, hv⟩) (f, c) (fun d hd => by simp at hd)).1
  obtain ⟨o, ho, rfl⟩ := List.mem_filterMap.1 hd
  exact h d ho

/-! ### Examples -/

namespace C77
/-- A hook that counts and panics at the third datum. -/
def third : Forest.Hook Nat Nat := fun n _ => if n = 2 then .error 3 else .ok (n + 1)

/-- A history with a removal that panics half-way, an overwritten datum and a copy. -/
def ops : List (Op Nat) :=
  [.createRoot 10, .createInsert 11 (.lastChildOf 0), .createInsert 12 (.lastChildOf 1), .nest 20 [.addChild 21, .boom],
   .setData 1 13, .cloneLocal Unit (fun d => some (d + 100)) (fun s _ _ => .ok s) () 0, .removeHooked Nat third 0 5, .remove 3]

/-- What entered: everything that was passed, and the copies. -/
example : Op.allEntered 100 Forest.new ops = [10, 11, 12, 20, 21, 13, 110, 113, 112] := by decide +kernel
/-- What left: the datum overwritten, the data given to the hook (also the one at which it panicked), those dropped. -/
example : Op.allLeft 100 Forest.new ops = [11, 112, 113, 110, 21, 20] := by decide +kernel
/-- What is still there. -/
example : (Op.run 100 Forest.new ops).held = [10, 13, 12] := by decide +kernel
end C77

/-! ### The hypotheses can be met

Each example applies the theorem named in its comment to a concrete forest. -/

section
/-- `C77_entered`: a builder. -/
example := C77_entered (cap := 100) Sample.built (.nest 1 [.addChild 2, .createTree 3 [.addChild 4]]) rfl

/-- `C77_entered_copies_foreign`: copies of the tree of node 2. -/
example : 112 ∈ (Op.cloneForeign Unit (fun d => some (d + 100)) (fun s _ _ => .ok s) () Sample.built 2).entered 100 (Forest.new : Forest Nat) := by decide

/-- `C77_entered_copies_foreign`: copies of the tree of node 2 (continued). -/
example : ∃ s ∈ Sample.built.held, (some (s + 100) : Option Nat) = some 112 :=
  C77_entered_copies_foreign (cap := 100) Forest.new (fun d => some (d + 100)) (fun s _ _ => .ok s) () Sample.built 2 112 (by decide)

/-- `C77_entered_copies_local`: a clone function that keeps data above 9. -/
example := C77_entered_copies_local (cap := 100) Sample.built (fun d => some (d + 1)) (fun (s : Unit) _ _ => .ok s) () 2 (fun d => 9 < d) (by decide)
  (fun d v h e => by cases e; omega)

end

end Treena
