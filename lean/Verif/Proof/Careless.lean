import Verif.Proof.ReleaseHist
/-! Two facts about next siblings that every history keeps, however careless. -/
set_option autoImplicit false

namespace Treena
variable {T : Type} {cap : Nat}

namespace Hier

/-- No node is its own next sibling; a node without a parent has no next sibling. -/
def Sane (h : Hier) : Prop := ∀ x, (h.get x).next ≠ some x ∧ ((h.get x).parent = none → (h.get x).next = none)

/-- Keeping it. -/
def KSane (h h' : Hier) : Prop := h.Sane → h'.Sane

theorem ksane_ord : PreOrd KSane := ⟨fun _ h => h, fun h1 h2 h => h2 (h1 h)⟩

theorem updNbr_ksane (id : Nat) (msg : String) {u : Neighbors → Neighbors}
    (hu : ∀ nb : Neighbors, nb.next ≠ some id → (nb.parent = none → nb.next = none) →
      (u nb).next ≠ some id ∧ ((u nb).parent = none → (u nb).next = none)) : Keeps KSane (updNbr id msg u) := by
  intro h hs
  by_cases hl : h.live id
  · rw [updNbr_live hl]
    intro x
    simp only [Res.state, get_put (live_lt hl)]
    by_cases e : x = id
    · subst e; rw [if_pos rfl]; exact hu _ (hs x).1 (hs x).2
    · rw [if_neg e]; exact hs x
  · rw [updNbr_dead hl]; exact hs

/-- Joining siblings below a parent, or cutting off the last one. -/
theorem connectTriangle_ksane {parent prev next : Option Nat} (hp : parent = none → next = none) :
    Keeps KSane (connectTriangle parent prev next) := by
  unfold connectTriangle
  split
  · exact Keeps.panic ksane_ord _
  split
  · exact Keeps.panic ksane_ord _
  rename_i h2
  refine Keeps.bind ksane_ord ?_ fun _ => Keeps.bind ksane_ord ?_ fun _ => ?_
  · unfold connectPrev
    cases prev with
    | none => exact Keeps.pure ksane_ord _
    | some a =>
      refine updNbr_ksane _ _ fun nb _ _ => ⟨fun e => ?_, hp⟩
      have e : next = some a := e
      subst e
      exact h2 (by simp)
  · unfold connectNext
    cases next with
    | none => exact Keeps.pure ksane_ord _
    | some b =>
      refine Keeps.bind ksane_ord (Keeps.read ksane_ord _) fun pc => updNbr_ksane _ _ fun nb h1 _ => ⟨h1, fun e => ?_⟩
      have e : parent = none := e
      cases hp e
  · unfold connectParent
    cases parent with
    | none => exact Keeps.pure ksane_ord _
    | some p =>
      cases prev with
      | none => exact updNbr_ksane _ _ fun nb h1 h2 => ⟨h1, h2⟩
      | some a =>
        cases next with
        | some b => exact Keeps.pure ksane_ord _
        | none =>
          refine Keeps.bind ksane_ord (nbrOf_keeps ksane_ord _ _) fun nb => ?_
          refine Keeps.bind ksane_ord (Keeps.read ksane_ord _) fun fc => ?_
          refine Keeps.bind ksane_ord (Keeps.read ksane_ord _) fun c => ?_
          exact updNbr_ksane _ _ fun nb h1 h2 => ⟨h1, h2⟩

theorem connectBelow_ksane (parent : Nat) (prev next : Option Nat) :
    Keeps KSane (connectTriangle (some parent) prev next) := connectTriangle_ksane nofun

theorem updRoot_ksane (x : Nat) (msg : String) :
    Keeps KSane (updNbr x msg fun nb => { nb with parent := none, next := none, prevCyc := some x }) :=
  updNbr_ksane _ _ fun _ _ _ => ⟨nofun, fun _ => rfl⟩

theorem detach_ksane (x : Nat) : Keeps KSane (detach x) := by
  unfold detach
  refine Keeps.bind ksane_ord (nbrOf_keeps ksane_ord _ _) fun nb => ?_
  refine Keeps.bind ksane_ord (Keeps.read ksane_ord _) fun p => ?_
  cases p with
  | none => exact Keeps.pure ksane_ord _
  | some p =>
    refine Keeps.bind ksane_ord (Keeps.read ksane_ord _) fun a => Keeps.bind ksane_ord (Keeps.read ksane_ord _) fun b => ?_
    refine Keeps.bind ksane_ord (connectTriangle_ksane nofun) fun _ => ?_
    exact updNbr_ksane _ _ fun nb _ _ => ⟨nofun, fun _ => rfl⟩

theorem rewriteParents_ksane (parent last : Nat) : ∀ (fuel : Nat) (o : Option Nat),
    Keeps KSane (rewriteParents parent last fuel o)
  | _, none => by unfold rewriteParents; exact Keeps.pure ksane_ord _
  | 0, some _ => by unfold rewriteParents; exact Keeps.throw ksane_ord _
  | fuel + 1, some child => by
    unfold rewriteParents
    split
    · exact Keeps.panic ksane_ord _
    refine Keeps.bind ksane_ord (updNbr_ksane _ _ fun nb h1 _ => ⟨h1, nofun⟩) fun _ => ?_
    split
    · exact Keeps.pure ksane_ord _
    refine Keeps.bind ksane_ord (nbrOf_keeps ksane_ord _ _) fun nb => ?_
    exact Keeps.bind ksane_ord (Keeps.read ksane_ord _) fun n => rewriteParents_ksane parent last fuel n

theorem transplantConnect_ksane (first last parent : Nat) (p n : Option Nat) :
    Keeps KSane (transplantConnect first last parent p n) := by
  unfold transplantConnect
  repeat' first
    | exact connectBelow_ksane _ _ _
    | with_reducible exact Keeps.pure ksane_ord _
    | with_reducible refine Keeps.bind ksane_ord ?_ (fun _ => ?_)
    | split

/-- The range to be moved is one node, or its first node has a parent. -/
theorem transplantDisconnect_ksane (first last : Nat) {h : Hier} (hr : first = last ∨ (h.get first).parent ≠ none) :
    KSane h (transplantDisconnect first last h).state := by
  intro hs
  unfold transplantDisconnect
  by_cases hl : h.live first
  · simp only [M.run_bind, nbrOf_live hl, M.read]
    have hf : (h.get first).isAlive = true := hl
    simp only [Neighbors.getParent, hf, Bool.not_true, if_neg Bool.false_ne_true]
    cases e1 : (h.get first).prevSibling h with
    | error e => exact hs
    | ok a =>
      simp only []
      by_cases hl2 : h.live last
      · have hf2 : (h.get last).isAlive = true := hl2
        simp only [nbrOf_live hl2, Neighbors.nextSibling, hf2, Bool.not_true, if_neg Bool.false_ne_true]
        refine connectTriangle_ksane (fun hp => ?_) h hs
        rcases hr with rfl | hr
        · exact (hs first).2 hp
        · exact absurd hp hr
      · simp only [nbrOf_dead hl2]; exact hs
  · simp only [M.run_bind, nbrOf_dead hl]; exact hs

theorem wouldMakeCyclicLinks_range {h : Hier} {first last parent : Nat} {b : Bool}
    (hw : h.wouldMakeCyclicLinks first last parent = .ok b) : first = last ∨ (h.get first).parent ≠ none := by
  by_cases e : first = last
  · exact .inl e
  refine .inr fun hp => ?_
  unfold wouldMakeCyclicLinks at hw
  by_cases hl : h.live first
  · have hf : (h.get first).isAlive = true := hl
    simp [neighbors_live hl, expect, e, Neighbors.getParent, hf, hp] at hw
  · simp [neighbors_dead hl, expect] at hw

theorem transplant_ksane (first last parent : Nat) (p n : Option Nat) :
    Keeps KSane (transplant first last parent p n) := by
  intro h hs
  unfold transplant
  simp only [M.run_bind, M.read]
  cases hw : h.wouldMakeCyclicLinks first last parent with
  | error e => exact hs
  | ok b =>
    cases b with
    | true => exact hs
    | false =>
      simp only [Bool.false_eq_true, if_false]
      have h1 := transplantDisconnect_ksane first last (wouldMakeCyclicLinks_range hw) hs
      simp only [M.run_bind]
      cases hd : transplantDisconnect first last h with
      | fail e h' => rw [hd] at h1; exact h1
      | ok a h' =>
        rw [hd] at h1
        have := Keeps.bind ksane_ord (rewriteParents_ksane parent last h'.loopFuel (some first)) (fun _ =>
          Keeps.bind ksane_ord (transplantConnect_ksane first last parent p n) fun _ =>
            Keeps.pure ksane_ord (Except.ok () : Except StructureError Unit)) h' h1
        simpa only [M.run_bind, M.read] using this

theorem insert_ksane (x : Nat) (d : InsertAs) : Keeps KSane (insert x d) := by
  have h := fun a b c d e => transplant_ksane a b c d e
  unfold insert prependChild appendChild insertBefore insertAfter
  repeat' first
    | with_reducible exact h _ _ _ _ _
    | with_reducible exact Keeps.pure ksane_ord _
    | with_reducible exact nbrOf_keeps ksane_ord _ _
    | with_reducible exact Keeps.read ksane_ord _
    | with_reducible refine Keeps.bind ksane_ord ?_ (fun _ => ?_)
    | split

theorem detachSingle_ksane (x : Nat) : Keeps KSane (detachSingle x) := by
  have h := fun a b c d e => transplant_ksane a b c d e
  have h1 := fun a => detach_ksane a
  unfold detachSingle
  repeat' first
    | with_reducible exact h _ _ _ _ _
    | with_reducible exact h1 _
    | with_reducible exact connectBelow_ksane _ _ _
    | with_reducible exact Keeps.pure ksane_ord _
    | with_reducible exact Keeps.panic ksane_ord _
    | with_reducible exact nbrOf_keeps ksane_ord _ _
    | with_reducible exact Keeps.read ksane_ord _
    | exact updRoot_ksane _ _
    | with_reducible refine Keeps.bind ksane_ord ?_ (fun _ => ?_)
    | split

theorem createRoot_ksane : Keeps KSane (Hier.createRoot cap) := by
  intro h hs
  unfold Hier.createRoot
  cases fromUsize cap h.nbrs.length with
  | none => exact hs
  | some id =>
    intro x
    simp only [Res.state]
    unfold get
    rw [List.getElem?_append]
    split
    · exact hs x
    · by_cases e : x - h.nbrs.length = 0
      · rw [e]; exact ⟨nofun, fun _ => rfl⟩
      · rw [List.getElem?_eq_none (by simp; omega)]; exact ⟨nofun, fun _ => rfl⟩

theorem forceMakeRemoved_ksane (id : Nat) (msg : String) : Keeps KSane (forceMakeRemoved id msg) :=
  updNbr_ksane _ _ fun _ _ _ => ⟨nofun, fun _ => rfl⟩

theorem makeRemoved_ksane (id : Nat) (msg : String) : Keeps KSane (makeRemoved id msg) := by
  unfold makeRemoved
  refine Keeps.bind ksane_ord (nbrOf_keeps ksane_ord _ _) fun nb => Keeps.bind ksane_ord (Keeps.read ksane_ord _) fun b => ?_
  split
  · exact Keeps.panic ksane_ord _
  · exact updNbr_ksane _ _ fun _ _ _ => ⟨nofun, fun _ => rfl⟩

end Hier

/-- The same for forests. -/
def FSane (f f' : Forest T) : Prop := f.hier.Sane → f'.hier.Sane

theorem fsane_ord : PreOrd (FSane (T := T)) := ⟨fun _ h => h, fun h1 h2 h => h2 (h1 h)⟩

theorem onHier_sane {α : Type} {m : M Hier α} (hm : Keeps Hier.KSane m) : Keeps FSane (Forest.onHier m : M (Forest T) α) :=
  Keeps.zoom hm fun _ _ h => h

theorem pushData_sane (d : T) : Keeps FSane (Forest.pushData d) := fun _ h => h
theorem takeData_sane (x : Nat) : Keeps FSane (Forest.takeData x : M (Forest T) T) := fun f h => by
  unfold Forest.takeData; split <;> exact h

theorem fsane_kept : Kept cap (FSane (T := T)) := by
  refine ⟨fsane_ord, fun d => ?_, fun d dest => ?_, fun x dest => onHier_sane (Hier.insert_ksane x dest),
    fun x => onHier_sane (Hier.detach_ksane x), fun x => onHier_sane (Hier.detachSingle_ksane x)⟩
  · unfold Forest.createRoot
    refine Keeps.bind fsane_ord (onHier_sane Hier.createRoot_ksane) fun id => ?_
    repeat' first
      | exact Keeps.pure fsane_ord _
      | exact Keeps.panic fsane_ord _
      | exact Keeps.read fsane_ord _
      | exact pushData_sane _
      | refine Keeps.bind fsane_ord ?_ (fun _ => ?_)
      | split
  · rw [createInsertMomo_eq]
    refine Keeps.bind fsane_ord (Keeps.read fsane_ord _) fun v => ?_
    split
    · exact Keeps.panic fsane_ord _
    refine Keeps.bind fsane_ord ?_ fun id => ?_
    · unfold pushRoot
      exact Keeps.bind fsane_ord (onHier_sane Hier.createRoot_ksane) fun _ =>
        Keeps.bind fsane_ord (pushData_sane d) fun _ => Keeps.pure fsane_ord _
    refine Keeps.bind fsane_ord (onHier_sane (Hier.insert_ksane id dest)) fun r => ?_
    split
    · exact Keeps.panic fsane_ord _
    · exact Keeps.pure fsane_ord _

theorem removeWith_sane {S : Type} {close : Nat → M (Forest T × S) Unit}
    (hc : ∀ x, Keeps (On1 FSane) (close x)) (x : Nat) : Keeps (On1 FSane) (Forest.removeWith close x) := by
  have hO := On1.ord (S := S) (fsane_ord (T := T))
  unfold Forest.removeWith
  refine Keeps.bind hO (Keeps.read hO _) fun al => ?_
  split
  · exact Keeps.pure hO _
  refine Keeps.bind hO (onForest_keeps (onHier_sane (Hier.detach_ksane x))) fun _ => ?_
  refine Keeps.bind hO (Keeps.read hO _) fun tr => Keeps.bind hO (Keeps.read hO _) fun fuel => ?_
  exact removeLoop_keeps fsane_ord hc _ _

theorem closeForce_sane {S : Type} (hook : Forest.Hook S T) (x : Nat) : Keeps (On1 FSane) (Forest.closeForce hook x) := by
  unfold Forest.closeForce
  refine Keeps.bind (On1.ord fsane_ord) (onForest_keeps ?_) fun d => callHook_keeps fsane_ord hook d
  exact Keeps.bind fsane_ord (onHier_sane (Hier.forceMakeRemoved_ksane _ _)) fun _ => takeData_sane x

theorem closePanicSafe_sane {S : Type} (hook : Forest.Hook S T) (x : Nat) : Keeps (On1 FSane) (Forest.closePanicSafe hook x) := by
  unfold Forest.closePanicSafe
  refine Keeps.bind (On1.ord fsane_ord) (onForest_keeps ?_) fun d => callHook_keeps fsane_ord hook d
  refine Keeps.bind fsane_ord (onHier_nbrOf_keeps fsane_ord _ _) fun nb => ?_
  refine Keeps.bind fsane_ord (Keeps.read fsane_ord _) fun fc => ?_
  split
  · exact Keeps.panic fsane_ord _
  refine Keeps.bind fsane_ord (onHier_sane (Hier.detach_ksane x)) fun _ => ?_
  refine Keeps.bind fsane_ord (onHier_nbrOf_keeps fsane_ord _ _) fun nb => ?_
  refine Keeps.bind fsane_ord (Keeps.read fsane_ord _) fun al => ?_
  split
  · exact Keeps.panic fsane_ord _
  exact Keeps.bind fsane_ord (onHier_sane (Hier.makeRemoved_ksane _ _)) fun _ => takeData_sane x

theorem removeHooked_sane {S : Type} (hook : Forest.Hook S T) (x : Nat) : Keeps (On1 FSane) (Forest.removeHooked hook x) :=
  removeWith_sane (closeForce_sane hook) x

theorem remove_sane (x : Nat) : Keeps FSane (Forest.remove x : M (Forest T) Unit) := by
  intro f
  have := removeHooked_sane (S := Unit) (fun s (_ : T) => .ok s) x (f, ())
  unfold Forest.remove
  cases h : Forest.removeHooked (S := Unit) (fun s (_ : T) => .ok s) x (f, ()) <;> rw [h] at this <;> exact this

theorem step_sane (f : Forest T) (op : Op T) : FSane f (Op.step cap f op) := by
  by_cases h : op.structural = true
  · exact step_kept fsane_kept f op h
  · cases op with
    | setData id v =>
      intro hs
      simp only [Op.step, Forest.setData]
      cases f.getData id <;> exact hs
    | remove x => exact remove_sane x f
    | removeHooked S hook c x => exact removeHooked_sane hook x (f, c)
    | removeHookedPanicSafe S hook c x => exact removeWith_sane (closePanicSafe_sane hook) x (f, c)
    | _ => simp [Op.structural] at h

theorem run_sane (ops : List (Op T)) : ∀ f : Forest T, FSane f (Op.run cap f ops) := by
  induction ops with
  | nil => intro f; exact fsane_ord.refl f
  | cons op ops ih => intro f; exact fsane_ord.trans (step_sane f op) (ih _)

theorem sane_new : (Forest.new : Forest T).hier.Sane := fun _ => ⟨nofun, fun _ => rfl⟩

namespace Release

theorem closePanicSafe_sane {S : Type} (hook : Treena.Forest.Hook S T) (x : Nat) :
    Keeps (On1 FSane) (Forest.closePanicSafe hook x) := by
  unfold Forest.closePanicSafe
  refine Keeps.bind (On1.ord fsane_ord) (onForest_keeps ?_) fun d => callHook_keeps fsane_ord hook d
  refine Keeps.bind fsane_ord (onHier_sane (Hier.detach_ksane x)) fun _ => ?_
  refine Keeps.bind fsane_ord (onHier_nbrOf_keeps fsane_ord _ _) fun nb => ?_
  exact Keeps.bind fsane_ord (onHier_sane (Hier.makeRemoved_ksane _ _)) fun _ => takeData_sane x

theorem step_sane (f : Treena.Forest T) (op : Op T) : FSane f (step cap f op) :=
  step_split f op (Treena.step_sane f op) fun S hook c x _ => by
    have : Keeps (On1 FSane) (Forest.removeHookedPanicSafe hook x) := by
      rw [removePanicSafe_eq]; exact removeWith_sane (closePanicSafe_sane hook) x
    exact this (f, c)

theorem run_sane (ops : List (Op T)) : ∀ f : Treena.Forest T, FSane f (run cap f ops) := by
  induction ops with
  | nil => intro f; exact fsane_ord.refl f
  | cons op ops ih => intro f; exact fsane_ord.trans (step_sane f op) (ih _)

end Release
end Treena
