import Verif.Spec.History
import Verif.Proof.Keeps
/-! Every call keeps `Coherent`, goes to a `Later` state, and (except removals and writes) keeps the data. -/
namespace Treena
variable {T : Type}

/-- The invariant of C03 and C04. -/
def Evolves (f f' : Forest T) : Prop := Coherent f → Coherent f' ∧ Later f f'

theorem later_refl (f : Forest T) : Later f f := ⟨Nat.le_refl _, fun _ _ h => h⟩
theorem Later.trans {a b c : Forest T} (h1 : Later a b) (h2 : Later b c) : Later a c :=
  ⟨Nat.le_trans h1.issued h2.issued,
   fun x hx h => h2.dead x (Nat.lt_of_lt_of_le hx h1.issued) (h1.dead x hx h)⟩

theorem evolves_ord : PreOrd (Evolves (T := T)) :=
  ⟨fun f h => ⟨h, later_refl f⟩, fun h1 h2 h =>
    ⟨(h2 (h1 h).1).1, (h1 h).2.trans (h2 (h1 h).1).2⟩⟩

theorem dataExt_ord : PreOrd (DataExt (T := T)) :=
  ⟨fun f => ⟨[], by simp⟩, fun ⟨l, h1⟩ ⟨m, h2⟩ => ⟨l ++ m, by rw [h2, h1, List.append_assoc]⟩⟩

/-- Both relations. -/
def Both (f f' : Forest T) : Prop := Evolves f f' ∧ DataExt f f'

theorem both_ord : PreOrd (Both (T := T)) :=
  ⟨fun f => ⟨evolves_ord.refl f, dataExt_ord.refl f⟩,
   fun h1 h2 => ⟨evolves_ord.trans h1.1 h2.1, dataExt_ord.trans h1.2 h2.2⟩⟩

/-- Structural operations change neither liveness nor data. -/
theorem onHier_both {α : Type} {m : M Hier α} (hm : Keeps Hier.SameLive m) :
    Keeps Both (Forest.onHier m : M (Forest T) α) :=
  Keeps.zoom hm fun f h hs => ⟨fun hc =>
    ⟨⟨by simpa using hc.len.trans hs.len.symm, fun x => (hc.live x).trans (hs.live x).symm⟩,
     ⟨Nat.le_refl _, fun _ _ h => h⟩⟩, ⟨[], by simp⟩⟩

theorem onHier_data {α : Type} (m : M Hier α) (f : Forest T) :
    (Forest.onHier m f).state.data = f.data := by
  unfold Forest.onHier M.zoom
  cases m f.hier <;> rfl

/-- Result of pushing a fresh live record and a datum. -/
theorem coherent_push {f : Forest T} (hc : Coherent f) (nb : Neighbors) (hnb : nb.isAlive = true) (d : T) :
    Coherent ({ hier := { nbrs := f.hier.nbrs ++ [nb] }, data := f.data ++ [some d] } : Forest T) ∧
    Later f { hier := { nbrs := f.hier.nbrs ++ [nb] }, data := f.data ++ [some d] } := by
  have hl := hc.len
  have hlive : ∀ x, ({ hier := { nbrs := f.hier.nbrs ++ [nb] }, data := f.data ++ [some d] } : Forest T).isAlive x =
      if x = f.data.length then true else f.isAlive x := by
    intro x
    unfold Forest.isAlive
    simp only [List.getElem?_append]
    by_cases h : x < f.data.length
    · have : x ≠ f.data.length := by omega
      simp [h, this]
    · by_cases e : x = f.data.length
      · subst e; simp
      · have h2 : f.data.length < x := by omega
        simp [h, e]
        cases h3 : x - f.data.length with
        | zero => omega
        | succ n => simp
  refine ⟨⟨by simp [hl], fun x => ?_⟩, ⟨by simp [Forest.issued], fun x hx hd => ?_⟩⟩
  · rw [hlive, hc.live]
    unfold Hier.isAlive
    simp only [List.getElem?_append]
    by_cases h : x < f.data.length
    · have : x ≠ f.data.length := by omega
      have h' : x < f.hier.nbrs.length := by omega
      simp [h', this]
    · have h' : ¬ x < f.hier.nbrs.length := by omega
      by_cases e : x = f.data.length
      · subst e; simp [hl, hnb]
      · simp [h', e]
        cases h3 : x - f.hier.nbrs.length with
        | zero => omega
        | succ n => simp
  · rw [hlive, hd]; unfold Forest.issued at hx; simp; omega

theorem createRoot_both (cap : Nat) (d : T) : Keeps Both (Forest.createRoot cap d) := by
  intro f
  by_cases hcap : f.hier.nbrs.length < cap
  · have hr : Hier.createRoot cap f.hier = .ok f.hier.nbrs.length
        { nbrs := f.hier.nbrs ++ [Neighbors.newRoot f.hier.nbrs.length] } := by
      simp [Hier.createRoot, Hier.fromUsize, hcap]
    refine ⟨fun hc => ?_, ?_⟩
    · have hl := hc.len
      have : (Forest.createRoot cap d f).state =
          { hier := { nbrs := f.hier.nbrs ++ [Neighbors.newRoot f.hier.nbrs.length] },
            data := f.data ++ [some d] } := by
        simp [Forest.createRoot, Forest.onHier, M.zoom, hr, M.read, hl, Forest.pushData, Res.state]
      rw [this]
      exact coherent_push hc _ rfl d
    · by_cases e : f.data.length = f.hier.nbrs.length
      · refine ⟨[some d], ?_⟩
        simp [Forest.createRoot, Forest.onHier, M.zoom, hr, M.read, e, Forest.pushData, Res.state]
      · refine ⟨[], ?_⟩
        simp [Forest.createRoot, Forest.onHier, M.zoom, hr, M.read, e, Res.state]
  · have hr : Forest.createRoot cap d f = .fail
        (.panic "[precondition] node ID overflowed presumably due to too many node creations") f := by
      simp [Forest.createRoot, Forest.onHier, M.zoom, Hier.createRoot, Hier.fromUsize, hcap]
    rw [hr]; exact both_ord.refl f

/-- The part of `create_insert_momo` that creates the node. -/
def pushRoot (cap : Nat) (d : T) : M (Forest T) Nat := do
  let newId ← Forest.onHier (Hier.createRoot cap)
  Forest.pushData d
  pure newId

theorem pushRoot_both (cap : Nat) (d : T) : Keeps Both (pushRoot cap d) := by
  intro f
  by_cases hcap : f.hier.nbrs.length < cap
  · have hr : Hier.createRoot cap f.hier = .ok f.hier.nbrs.length
        { nbrs := f.hier.nbrs ++ [Neighbors.newRoot f.hier.nbrs.length] } := by
      simp [Hier.createRoot, Hier.fromUsize, hcap]
    have : (pushRoot cap d f).state =
        { hier := { nbrs := f.hier.nbrs ++ [Neighbors.newRoot f.hier.nbrs.length] },
          data := f.data ++ [some d] } := by
      simp [pushRoot, Forest.onHier, M.zoom, hr, Forest.pushData, Res.state]
    rw [this]
    exact ⟨fun hc => coherent_push hc _ rfl d, ⟨_, rfl⟩⟩
  · have hr : pushRoot cap d f = .fail
        (.panic "[precondition] node ID overflowed presumably due to too many node creations") f := by
      simp [pushRoot, Forest.onHier, M.zoom, Hier.createRoot, Hier.fromUsize, hcap]
    rw [hr]; exact both_ord.refl f

theorem M.bind_assoc' {σ α β γ : Type} (m : M σ α) (f : α → M σ β) (g : β → M σ γ) :
    (m >>= f) >>= g = m >>= fun a => f a >>= g := by
  funext s
  simp only [M.run_bind]
  cases m s <;> rfl

theorem createInsertMomo_eq (cap : Nat) (d : T) (dest : InsertAs) :
    Forest.createInsertMomo cap d dest = (do
      let valid ← M.read fun f => .ok (f.hier.isValid dest.toAnchor)
      if !valid then M.panic "[precondition] the anchor must be valid for this forest"
      else do
        let newId ← pushRoot cap d
        let r ← Forest.onHier (Hier.insert newId dest)
        match r with
        | .error _ => M.panic "[precondition] newly created node is independent from the destination"
        | .ok () => pure newId) := by
  unfold Forest.createInsertMomo pushRoot
  congr 1; funext v
  split
  · rfl
  · rw [M.bind_assoc']; congr 1

theorem insert_both (x : Nat) (d : InsertAs) : Keeps Both (Forest.insert x d : M (Forest T) _) :=
  onHier_both (Hier.insert_sameLive x d)
theorem detach_both (x : Nat) : Keeps Both (Forest.detach x : M (Forest T) _) :=
  onHier_both (Hier.detach_sameLive x)
theorem detachSingle_both (x : Nat) : Keeps Both (Forest.detachSingle x : M (Forest T) _) :=
  onHier_both (Hier.detachSingle_sameLive x)

theorem createInsertMomo_both (cap : Nat) (d : T) (dest : InsertAs) :
    Keeps Both (Forest.createInsertMomo cap d dest) := by
  rw [createInsertMomo_eq]
  refine Keeps.bind both_ord (Keeps.read both_ord _) fun v => ?_
  split
  · exact Keeps.panic both_ord _
  refine Keeps.bind both_ord (pushRoot_both cap d) fun id => ?_
  refine Keeps.bind both_ord (insert_both id dest) fun r => ?_
  split
  · exact Keeps.panic both_ord _
  · exact Keeps.pure both_ord _

/-! ### Callbacks -/

/-- A relation on forests, on states with a callback state. -/
def On1 {S : Type} (Q : Forest T → Forest T → Prop) (p q : Forest T × S) : Prop := Q p.1 q.1

theorem On1.ord {S : Type} {Q : Forest T → Forest T → Prop} (hQ : PreOrd Q) : PreOrd (On1 (S := S) Q) :=
  ⟨fun p => hQ.refl p.1, fun h1 h2 => hQ.trans h1 h2⟩

theorem onForest_keeps {S α : Type} {Q : Forest T → Forest T → Prop} {m : M (Forest T) α}
    (hm : Keeps Q m) : Keeps (On1 (S := S) Q) (Forest.onForest m) :=
  Keeps.zoom hm fun _ _ h => h

theorem callHook_keeps {S : Type} {Q : Forest T → Forest T → Prop} (hQ : PreOrd Q)
    (hook : Forest.Hook S T) (d : T) : Keeps (On1 Q) (Forest.callHook hook d) := by
  rintro ⟨f, s⟩
  unfold Forest.callHook
  simp only []
  cases hook s d <;> exact hQ.refl f

theorem callMap_keeps {S : Type} {Q : Forest T → Forest T → Prop} (hQ : PreOrd Q)
    (hook : Forest.MapHook S) (a b : Nat) : Keeps (On1 (T := T) Q) (Forest.callMap hook a b) := by
  rintro ⟨f, s⟩
  unfold Forest.callMap
  simp only []
  cases hook s a b <;> exact hQ.refl f

/-! ### Cloning, for any reflexive and transitive relation kept by creation -/
section clone
variable {Q : Forest T → Forest T → Prop} {cap : Nat}

theorem cloneNextNode_keeps {τ : Type} (hQ : PreOrd Q)
    (hI : ∀ d dest, Keeps Q (Forest.createInsertMomo cap d dest)) (cl : T → Option T)
    (src : Forest.CloneSrc T τ) : ∀ (fuel cur : Nat) (tr : τ),
    Keeps Q (Forest.cloneNextNode cap cl src fuel cur tr)
  | 0, _, _ => by unfold Forest.cloneNextNode; exact Keeps.throw hQ _
  | fuel + 1, cur, tr => by
    unfold Forest.cloneNextNode
    refine Keeps.bind hQ (Keeps.read hQ _) fun p => ?_
    obtain ⟨ev, tr'⟩ := p
    simp only []
    split
    · exact Keeps.panic hQ _
    · refine Keeps.bind hQ (Keeps.read hQ _) fun d => ?_
      exact Keeps.bind hQ (hI d _) fun _ => Keeps.pure hQ _
    · refine Keeps.bind hQ ?_ fun nb => ?_
      · intro f
        unfold Forest.onHier M.zoom Hier.nbrOf M.read
        simp only []
        cases expect (f.hier.neighbors cur) "[consistency] the node being created must be alive" <;>
          exact hQ.refl f
      refine Keeps.bind hQ (Keeps.read hQ _) fun p => ?_
      split
      · exact cloneNextNode_keeps hQ hI cl src fuel _ _
      · exact Keeps.pure hQ _

theorem cloneLoop_keeps {S τ : Type} (hQ : PreOrd Q)
    (hI : ∀ d dest, Keeps Q (Forest.createInsertMomo cap d dest)) (cl : T → Option T)
    (src : Forest.CloneSrc T τ) (hook : Forest.MapHook S) (I : Nat) : ∀ (fuel cur : Nat) (tr : τ),
    Keeps (On1 Q) (Forest.cloneLoop cap cl src hook I fuel cur tr)
  | 0, _, _ => by unfold Forest.cloneLoop; exact Keeps.throw (On1.ord hQ) _
  | fuel + 1, cur, tr => by
    unfold Forest.cloneLoop
    refine Keeps.bind (On1.ord hQ) (onForest_keeps (cloneNextNode_keeps hQ hI cl src _ _ _)) fun p => ?_
    obtain ⟨o, cur', tr'⟩ := p
    simp only []
    split
    · exact Keeps.pure (On1.ord hQ) _
    · refine Keeps.bind (On1.ord hQ) (callMap_keeps hQ hook _ _) fun _ => ?_
      exact cloneLoop_keeps hQ hI cl src hook I fuel _ _

theorem cloneLocal_keeps {S : Type} (hQ : PreOrd Q) (hR : ∀ d, Keeps Q (Forest.createRoot cap d))
    (hI : ∀ d dest, Keeps Q (Forest.createInsertMomo cap d dest)) (cl : T → Option T)
    (hook : Forest.MapHook S) (x : Nat) :
    Keeps (On1 Q) (Forest.cloneLocalTreeWithIdMapping cap cl hook x) := by
  have hO := On1.ord (S := S) hQ
  unfold Forest.cloneLocalTreeWithIdMapping
  refine Keeps.bind hO (Keeps.read hO _) fun d => ?_
  refine Keeps.bind hO (Keeps.read hO _) fun d' => ?_
  refine Keeps.bind hO (onForest_keeps (hR _)) fun r => ?_
  refine Keeps.bind hO (callMap_keeps hQ hook _ _) fun _ => ?_
  refine Keeps.bind hO (Keeps.read hO _) fun tr => ?_
  refine Keeps.bind hO (Keeps.read hO _) fun p => ?_
  obtain ⟨_, tr⟩ := p
  simp only []
  refine Keeps.bind hO (cloneLoop_keeps hQ hI cl _ hook _ _ _ _) fun q => ?_
  obtain ⟨cur, _⟩ := q
  simp only []
  split
  · exact Keeps.panic hO _
  · exact Keeps.pure hO _

theorem cloneForeign_keeps {S : Type} (hQ : PreOrd Q) (hR : ∀ d, Keeps Q (Forest.createRoot cap d))
    (hI : ∀ d dest, Keeps Q (Forest.createInsertMomo cap d dest)) (cl : T → Option T)
    (hook : Forest.MapHook S) (fsrc : Forest T) (x : Nat) :
    Keeps (On1 Q) (Forest.cloneForeignTreeWithIdMapping cap cl hook fsrc x) := by
  have hO := On1.ord (S := S) hQ
  unfold Forest.cloneForeignTreeWithIdMapping
  refine Keeps.bind hO (Keeps.read hO _) fun d => ?_
  refine Keeps.bind hO (Keeps.read hO _) fun d' => ?_
  refine Keeps.bind hO (onForest_keeps (hR _)) fun r => ?_
  refine Keeps.bind hO (callMap_keeps hQ hook _ _) fun _ => ?_
  refine Keeps.bind hO (Keeps.read hO _) fun tr => ?_
  refine Keeps.bind hO (Keeps.read hO _) fun p => ?_
  obtain ⟨_, tr⟩ := p
  simp only []
  refine Keeps.bind hO (cloneLoop_keeps hQ hI cl _ hook _ _ _ _) fun q => ?_
  obtain ⟨cur, tr⟩ := q
  simp only []
  split
  · exact Keeps.panic hO _
  · refine Keeps.bind hO (Keeps.read hO _) fun q => ?_
    obtain ⟨last, _⟩ := q
    simp only []
    split
    · exact Keeps.panic hO _
    · exact Keeps.pure hO _

end clone

/-! ### Removal -/

theorem coherent_kill {f : Forest T} (hc : Coherent f) {x : Nat} (hx : f.hier.live x) :
    ∃ d, f.data[x]? = some (some d) ∧
    Evolves f { hier := f.hier.put x Neighbors.removed, data := f.data.set x none } := by
  have hlt : x < f.hier.nbrs.length := Hier.live_lt hx
  have hltd : x < f.data.length := by rw [hc.len]; exact hlt
  have ha : f.isAlive x = true := by rw [hc.live, Hier.isAlive_iff]; exact hx
  have hget : f.data[x]? = some f.data[x] := List.getElem?_eq_getElem hltd
  unfold Forest.isAlive at ha
  rw [hget] at ha
  obtain ⟨d, hd⟩ := Option.isSome_iff_exists.1 ha
  refine ⟨d, by rw [hget, hd], fun _ => ?_⟩
  have hlive : ∀ y, ({ hier := f.hier.put x Neighbors.removed, data := f.data.set x none } : Forest T).isAlive y =
      if y = x then false else f.isAlive y := by
    intro y
    unfold Forest.isAlive
    simp only [List.getElem?_set]
    by_cases e : x = y
    · subst e; simp [hltd]
    · have : y ≠ x := fun h => e h.symm
      simp [e, this]
  refine ⟨⟨by simp [hc.len], fun y => ?_⟩, ⟨by simp [Forest.issued], fun y _ hd => ?_⟩⟩
  · rw [hlive, Hier.isAlive_eq, Hier.get_put hlt]
    split
    · rfl
    · rw [hc.live, Hier.isAlive_eq]
  · rw [hlive, hd]; simp

/-- Removing a record and its datum. -/
theorem killStep_evolves {m : M Hier Unit} (x : Nat)
    (hm : ∀ h, m h = .ok () (h.put x Neighbors.removed) ∧ h.live x ∨ ∃ e, m h = .fail e h) :
    Keeps Evolves ((do Forest.onHier m; Forest.takeData x) : M (Forest T) T) := by
  intro f hc
  rcases hm f.hier with ⟨h1, hl⟩ | ⟨e, h1⟩
  · obtain ⟨d, hd, hev⟩ := coherent_kill hc hl
    have : ((do Forest.onHier m; Forest.takeData x : M (Forest T) T) f).state =
        { hier := f.hier.put x Neighbors.removed, data := f.data.set x none } := by
      simp [Forest.onHier, M.zoom, h1, Forest.takeData, hd, Res.state]
    rw [this]; exact hev hc
  · have : ((do Forest.onHier m; Forest.takeData x : M (Forest T) T) f).state = f := by
      simp [Forest.onHier, M.zoom, h1, Res.state]
    rw [this]; exact evolves_ord.refl f hc

theorem forceMakeRemoved_cases (x : Nat) (msg : String) (h : Hier) :
    Hier.forceMakeRemoved x msg h = .ok () (h.put x Neighbors.removed) ∧ h.live x ∨
      ∃ e, Hier.forceMakeRemoved x msg h = .fail e h := by
  unfold Hier.forceMakeRemoved
  by_cases hl : h.live x
  · exact .inl ⟨Hier.updNbr_live hl _ _, hl⟩
  · exact .inr ⟨_, Hier.updNbr_dead hl _ _⟩

theorem makeRemoved_cases (x : Nat) (msg : String) (h : Hier) :
    Hier.makeRemoved x msg h = .ok () (h.put x Neighbors.removed) ∧ h.live x ∨
      ∃ e, Hier.makeRemoved x msg h = .fail e h := by
  unfold Hier.makeRemoved
  by_cases hl : h.live x
  · simp only [M.run_bind, Hier.nbrOf_live hl, M.read]
    cases (h.get x).isAlone with
    | error e => exact .inr ⟨e, rfl⟩
    | ok b =>
      cases b
      · exact .inr ⟨_, rfl⟩
      · exact .inl ⟨by simpa using Hier.updNbr_live hl _ _, hl⟩
  · exact .inr ⟨_, by simp only [M.run_bind, Hier.nbrOf_dead hl]; rfl⟩

theorem closeForce_evolves {S : Type} (hook : Forest.Hook S T) (x : Nat) :
    Keeps (On1 Evolves) (Forest.closeForce hook x) := by
  unfold Forest.closeForce
  refine Keeps.bind (On1.ord evolves_ord) (onForest_keeps ?_) fun d => callHook_keeps evolves_ord hook d
  exact killStep_evolves x (forceMakeRemoved_cases x _)

theorem onHier_nbrOf_keeps {Q : Forest T → Forest T → Prop} (hQ : PreOrd Q) (x : Nat) (msg : String) :
    Keeps Q (Forest.onHier (Hier.nbrOf x msg) : M (Forest T) Neighbors) := by
  intro f
  unfold Forest.onHier M.zoom Hier.nbrOf M.read
  simp only []
  cases expect (f.hier.neighbors x) msg <;> exact hQ.refl f

theorem closePanicSafe_evolves {S : Type} (hook : Forest.Hook S T) (x : Nat) :
    Keeps (On1 Evolves) (Forest.closePanicSafe hook x) := by
  unfold Forest.closePanicSafe
  refine Keeps.bind (On1.ord evolves_ord) (onForest_keeps ?_) fun d => callHook_keeps evolves_ord hook d
  refine Keeps.bind evolves_ord (onHier_nbrOf_keeps evolves_ord _ _) fun nb => ?_
  refine Keeps.bind evolves_ord (Keeps.read evolves_ord _) fun fc => ?_
  split
  · exact Keeps.panic evolves_ord _
  refine Keeps.bind evolves_ord ((detach_both x).mono fun _ _ h => h.1) fun _ => ?_
  refine Keeps.bind evolves_ord (onHier_nbrOf_keeps evolves_ord _ _) fun nb => ?_
  refine Keeps.bind evolves_ord (Keeps.read evolves_ord _) fun al => ?_
  split
  · exact Keeps.panic evolves_ord _
  exact killStep_evolves x (makeRemoved_cases x _)

theorem removeLoop_keeps {S : Type} {Q : Forest T → Forest T → Prop} (hQ : PreOrd Q)
    {close : Nat → M (Forest T × S) Unit} (hc : ∀ x, Keeps (On1 Q) (close x)) :
    ∀ (fuel : Nat) (tr : Safe.St), Keeps (On1 Q) (Forest.removeLoop close fuel tr)
  | 0, _ => by unfold Forest.removeLoop; exact Keeps.throw (On1.ord hQ) _
  | fuel + 1, tr => by
    unfold Forest.removeLoop
    refine Keeps.bind (On1.ord hQ) (Keeps.read (On1.ord hQ) _) fun p => ?_
    obtain ⟨ev, tr'⟩ := p
    simp only []
    split
    · exact Keeps.pure (On1.ord hQ) _
    · exact removeLoop_keeps hQ hc fuel tr'
    · exact Keeps.bind (On1.ord hQ) (hc _) fun _ => removeLoop_keeps hQ hc fuel tr'

theorem removeWith_evolves {S : Type} {close : Nat → M (Forest T × S) Unit}
    (hc : ∀ x, Keeps (On1 Evolves) (close x)) (x : Nat) : Keeps (On1 Evolves) (Forest.removeWith close x) := by
  have hO := On1.ord (S := S) (evolves_ord (T := T))
  unfold Forest.removeWith
  refine Keeps.bind hO (Keeps.read hO _) fun al => ?_
  split
  · exact Keeps.pure hO _
  refine Keeps.bind hO (onForest_keeps ((detach_both x).mono fun _ _ h => h.1)) fun _ => ?_
  refine Keeps.bind hO (Keeps.read hO _) fun tr => ?_
  refine Keeps.bind hO (Keeps.read hO _) fun fuel => ?_
  exact removeLoop_keeps evolves_ord hc _ _

theorem removeHooked_evolves {S : Type} (hook : Forest.Hook S T) (x : Nat) :
    Keeps (On1 Evolves) (Forest.removeHooked hook x) := removeWith_evolves (closeForce_evolves hook) x
theorem removeHookedPanicSafe_evolves {S : Type} (hook : Forest.Hook S T) (x : Nat) :
    Keeps (On1 Evolves) (Forest.removeHookedPanicSafe hook x) :=
  removeWith_evolves (closePanicSafe_evolves hook) x

theorem remove_evolves (x : Nat) : Keeps Evolves (Forest.remove x : M (Forest T) Unit) := by
  intro f
  have := removeHooked_evolves (S := Unit) (fun s (_ : T) => .ok s) x (f, ())
  unfold Forest.remove
  cases h : Forest.removeHooked (S := Unit) (fun s (_ : T) => .ok s) x (f, ()) <;> rw [h] at this <;> exact this

/-! ### Writes -/

theorem setData_evolves (x : Nat) (v : T) : Keeps Evolves (Forest.setData x v) := by
  intro f hc
  unfold Forest.setData
  cases h : f.getData x with
  | none => exact evolves_ord.refl f hc
  | some d =>
    have hlive : ∀ y, ({ f with data := f.data.set x (some v) } : Forest T).isAlive y = f.isAlive y := by
      intro y
      unfold Forest.isAlive
      simp only [List.getElem?_set]
      by_cases e : x = y
      · subst e
        unfold Forest.getData at h
        cases hd : f.data[x]? with
        | none => rw [hd] at h; simp at h
        | some o =>
          have hlt : x < f.data.length := by
            apply Classical.byContradiction; intro hn
            rw [List.getElem?_eq_none (by omega)] at hd; simp at hd
          rw [hd] at h; simp at h; simp [hlt, h]
      · simp [e]
    refine ⟨⟨by simpa [Res.state] using hc.len, fun y => ?_⟩, ⟨by simp [Forest.issued, Res.state], fun y _ hd => ?_⟩⟩
    · simp only [Res.state, hlive]; exact hc.live y
    · simp only [Res.state, hlive]; exact hd

/-! ### Builders, for any relation kept by creation and insertion -/
section builders
variable {Q : Forest T → Forest T → Prop} {cap : Nat}

/-- On the forest of a `NestTreeBuilder`. -/
def OnNest (Q : Forest T → Forest T → Prop) (p q : Nest T) : Prop := Q p.forest q.forest
theorem OnNest.ord (hQ : PreOrd Q) : PreOrd (OnNest Q) :=
  ⟨fun p => hQ.refl _, fun h1 h2 => hQ.trans h1 h2⟩

/-- On the forest of a `ChainTreeBuilder`. -/
def OnChain (Q : Forest T → Forest T → Prop) (p q : Chain T) : Prop := Q p.forest q.forest
theorem OnChain.ord (hQ : PreOrd Q) : PreOrd (OnChain Q) :=
  ⟨fun p => hQ.refl _, fun h1 h2 => hQ.trans h1 h2⟩

end builders

/-- A relation kept by the elementary functions that neither remove nodes nor write data. -/
structure Kept (cap : Nat) (Q : Forest T → Forest T → Prop) : Prop where
  ord : PreOrd Q
  root : ∀ d, Keeps Q (Forest.createRoot cap d)
  momo : ∀ d dest, Keeps Q (Forest.createInsertMomo cap d dest)
  insert : ∀ x dest, Keeps Q (Forest.insert x dest)
  detach : ∀ x, Keeps Q (Forest.detach x)
  detachSingle : ∀ x, Keeps Q (Forest.detachSingle x)

section raw
variable {cap : Nat} {Q : Forest T → Forest T → Prop}

theorem nest_addChild_kept (k : Kept cap Q) (d : T) : Keeps (OnNest Q) (Nest.addChild cap d) := by
  have hO := OnNest.ord k.ord
  unfold Nest.addChild
  refine Keeps.bind hO (Keeps.zoom (k.root d) fun _ _ h => h) fun id => ?_
  refine Keeps.bind hO ?_ fun _ => fun b => hO.refl b
  have key : ∀ dest, Keeps (OnNest Q)
      (do let r ← Nest.onForest (Forest.insert id dest); Nest.expectOk r Nest.addMsg : M (Nest T) Unit) := by
    intro dest
    refine Keeps.bind hO (Keeps.zoom (k.insert id dest) fun _ _ h => h) fun r => ?_
    unfold Nest.expectOk
    split
    · exact Keeps.pure hO _
    · exact Keeps.panic hO _
  intro b
  unfold Nest.place
  cases b.current with
  | none => exact key _ b
  | some c => exact key _ b

theorem nest_createTree_kept (k : Kept cap Q) (d : T) {f : M (Nest T) Unit} (hf : Keeps (OnNest Q) f) :
    Keeps (OnNest Q) (Nest.createTree cap d f) := by
  have hO := OnNest.ord k.ord
  unfold Nest.createTree
  refine Keeps.bind hO (nest_addChild_kept k d) fun _ => ?_
  refine Keeps.bind hO (Keeps.read hO _) fun n => ?_
  refine Keeps.bind hO (fun b => k.ord.refl b.forest) fun _ => ?_
  refine Keeps.bind hO (Keeps.read hO _) fun o => ?_
  refine Keeps.bind hO (fun b => k.ord.refl b.forest) fun _ => ?_
  refine Keeps.bind hO hf fun _ => ?_
  exact Keeps.bind hO (fun b => k.ord.refl b.forest) fun _ => fun b => k.ord.refl b.forest

mutual
theorem nest_exec_kept (k : Kept cap Q) : ∀ c : NestCall T, Keeps (OnNest Q) (NestCall.exec cap c)
  | .addChild d => by unfold NestCall.exec; exact nest_addChild_kept k d
  | .createTree d cs => by unfold NestCall.exec; exact nest_createTree_kept k d (nest_execL_kept k cs)
  | .boom => by unfold NestCall.exec; exact Keeps.panic (OnNest.ord k.ord) _
theorem nest_execL_kept (k : Kept cap Q) : ∀ cs : List (NestCall T), Keeps (OnNest Q) (NestCall.execL cap cs)
  | [] => by unfold NestCall.execL; exact Keeps.pure (OnNest.ord k.ord) _
  | c :: cs => by
    unfold NestCall.execL
    exact Keeps.bind (OnNest.ord k.ord) (nest_exec_kept k c) fun _ => nest_execL_kept k cs
end

theorem nestBuild_kept (k : Kept cap Q) (d : T) (cs : List (NestCall T)) : Keeps Q (nestBuild cap d cs) := by
  intro f
  have h1 := k.root d f
  unfold nestBuild Nest.new
  cases h : Forest.createRoot cap d f with
  | fail e f' => rw [h] at h1; exact h1
  | ok r f' =>
    rw [h] at h1
    simp only []
    have h2 := nest_execL_kept k cs { forest := f', root := r, current := none }
    cases h3 : NestCall.execL cap cs { forest := f', root := r, current := none } <;> rw [h3] at h2 <;>
      exact k.ord.trans h1 h2

theorem chain_exec_kept (k : Kept cap Q) (c : ChainCall T) : Keeps (OnChain Q) (ChainCall.exec cap c) := by
  have hO := OnChain.ord k.ord
  have key : ∀ d dest, Keeps (OnChain Q) (do
      let new ← Chain.onForest (Forest.createInsert cap d dest)
      M.modify fun b => { b with current := new } : M (Chain T) Unit) := by
    intro d dest
    exact Keeps.bind hO (Keeps.zoom (k.momo d dest) fun _ _ h => h)
      fun _ => fun b => k.ord.refl b.forest
  cases c with
  | child d => exact fun b => key d _ b
  | sibling d => exact fun b => key d _ b
  | parent =>
    unfold ChainCall.exec Chain.parent
    refine Keeps.bind hO (Keeps.read hO _) fun p => Keeps.bind hO (Keeps.read hO _) fun _ => ?_
    exact fun b => k.ord.refl b.forest
  | tryParent =>
    unfold ChainCall.exec Chain.tryParent
    refine Keeps.bind hO ?_ fun _ => Keeps.pure hO _
    refine Keeps.bind hO (Keeps.read hO _) fun p => ?_
    split
    · exact Keeps.pure hO _
    · exact Keeps.bind hO (fun b => k.ord.refl b.forest) fun _ => Keeps.pure hO _

theorem chain_execL_kept (k : Kept cap Q) : ∀ cs : List (ChainCall T), Keeps (OnChain Q) (ChainCall.execL cap cs)
  | [] => by unfold ChainCall.execL; exact Keeps.pure (OnChain.ord k.ord) _
  | c :: cs => by
    unfold ChainCall.execL
    exact Keeps.bind (OnChain.ord k.ord) (chain_exec_kept k c) fun _ => chain_execL_kept k cs

theorem chainBuild_kept (k : Kept cap Q) (d : T) (cs : List (ChainCall T)) : Keeps Q (chainBuild cap d cs) := by
  intro f
  have h1 := k.root d f
  unfold chainBuild Chain.new
  cases h : Forest.createRoot cap d f with
  | fail e f' => rw [h] at h1; exact h1
  | ok r f' =>
    rw [h] at h1
    simp only []
    have h2 := chain_execL_kept k cs { forest := f', root := r, current := r }
    cases h3 : ChainCall.execL cap cs { forest := f', root := r, current := r } <;> rw [h3] at h2 <;>
      exact k.ord.trans h1 h2

theorem cloneLocal_kept (k : Kept cap Q) {S : Type} (cl : T → Option T) (hook : Forest.MapHook S) (x : Nat) :
    Keeps (On1 Q) (Forest.cloneLocalTreeWithIdMapping cap cl hook x) :=
  cloneLocal_keeps k.ord (k.root) (k.momo) cl hook x

theorem cloneForeign_kept (k : Kept cap Q) {S : Type} (cl : T → Option T) (hook : Forest.MapHook S) (fsrc : Forest T) (x : Nat) :
    Keeps (On1 Q) (Forest.cloneForeignTreeWithIdMapping cap cl hook fsrc x) :=
  cloneForeign_keeps k.ord (k.root) (k.momo) cl hook fsrc x

theorem adopt_kept (k : Kept cap Q) (self x : Nat) (d : AdoptAs) : Keeps Q (NodeMut.adopt self x d : M (Forest T) Unit) := by
  unfold NodeMut.adopt
  refine Keeps.bind k.ord (k.insert x _) fun r => ?_
  split
  · exact Keeps.panic k.ord _
  · exact Keeps.pure k.ord _

/-- Calls that neither remove nodes nor write data. -/
def Op.structural : Op T → Bool
  | .setData .. => false
  | .remove .. => false
  | .removeHooked .. => false
  | .removeHookedPanicSafe .. => false
  | _ => true

theorem step_kept (k : Kept cap Q) (f : Forest T) (op : Op T) (h : op.structural = true) : Q f (Op.step cap f op) := by
  cases op with
  | createRoot d => exact k.root d f
  | createInsert d dest => exact k.momo d dest f
  | setData id v => simp [Op.structural] at h
  | insert x dest => exact k.insert x dest f
  | detach x => exact k.detach x f
  | detachSingle x => exact k.detachSingle x f
  | remove x => simp [Op.structural] at h
  | removeHooked S hook c x => simp [Op.structural] at h
  | removeHookedPanicSafe S hook c x => simp [Op.structural] at h
  | cloneLocal S cl hook c x => exact cloneLocal_kept k cl hook x (f, c)
  | cloneForeign S cl hook c fsrc x => exact cloneForeign_kept k cl hook fsrc x (f, c)
  | nodeCreate self d dest =>
    simp only [Op.step]; split
    · exact k.momo d _ f
    · exact k.ord.refl f
  | tryAdopt self x dest =>
    simp only [Op.step]; split
    · exact k.insert x _ f
    · exact k.ord.refl f
  | adopt self x dest =>
    simp only [Op.step]; split
    · exact adopt_kept k self x dest f
    · exact k.ord.refl f
  | nest d calls => exact nestBuild_kept k d calls f
  | chain d calls => exact chainBuild_kept k d calls f

theorem both_kept : Kept cap (Both (T := T)) :=
  ⟨both_ord, createRoot_both cap, createInsertMomo_both cap, insert_both, detach_both, detachSingle_both⟩

theorem step_both (f : Forest T) (op : Op T) (h : op.structural = true) : Both f (Op.step cap f op) :=
  step_kept both_kept f op h
theorem nest_execL_both (cs : List (NestCall T)) : Keeps (OnNest Both) (NestCall.execL cap cs) :=
  nest_execL_kept both_kept cs
theorem chain_execL_both (cs : List (ChainCall T)) : Keeps (OnChain Both) (ChainCall.execL cap cs) :=
  chain_execL_kept both_kept cs
theorem cloneLocal_both {S : Type} (cl : T → Option T) (hook : Forest.MapHook S) (x : Nat) :
    Keeps (On1 Both) (Forest.cloneLocalTreeWithIdMapping cap cl hook x) := cloneLocal_kept both_kept cl hook x
theorem cloneForeign_both {S : Type} (cl : T → Option T) (hook : Forest.MapHook S) (fsrc : Forest T) (x : Nat) :
    Keeps (On1 Both) (Forest.cloneForeignTreeWithIdMapping cap cl hook fsrc x) :=
  cloneForeign_kept both_kept cl hook fsrc x

theorem step_evolves (f : Forest T) (op : Op T) : Evolves f (Op.step cap f op) := by
  by_cases h : op.structural = true
  · exact (step_both f op h).1
  · cases op with
    | setData id v => exact setData_evolves id v f
    | remove x => exact remove_evolves x f
    | removeHooked S hook c x => exact removeHooked_evolves hook x (f, c)
    | removeHookedPanicSafe S hook c x => exact removeHookedPanicSafe_evolves hook x (f, c)
    | _ => simp [Op.structural] at h

theorem run_evolves (ops : List (Op T)) : ∀ f : Forest T, Evolves f (Op.run cap f ops) := by
  induction ops with
  | nil => intro f; exact evolves_ord.refl f
  | cons op ops ih => intro f; exact evolves_ord.trans (step_evolves f op) (ih _)

theorem coherent_new : Coherent (Forest.new : Forest T) := ⟨rfl, fun x => by simp [Forest.isAlive, Forest.new, Hier.isAlive]⟩

theorem Reachable.coherent {f : Forest T} (h : Reachable cap f) : Coherent f := by
  obtain ⟨ops, rfl⟩ := h
  exact (run_evolves ops _ coherent_new).1

end raw
end Treena
