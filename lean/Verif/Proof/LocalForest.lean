import Verif.Proof.LocalRead
import Verif.Model.History
/-! Locality of the functions of `forest.rs` that change the forest, and of the builders. -/
set_option autoImplicit false
namespace Treena
open Hier (InO InN InE Same Out)
variable {T : Type} {cap : Nat} {Q : Nat → Prop}

theorem SameIn.same {f g : Forest T} (h : SameIn cap Q f g) : Same cap Q f.hier g.hier :=
  ⟨h.size, h.links, h.separate.closed, fun x hx => h.separate.fresh x (.inl hx)⟩

theorem sameOut_ord : PreOrd (SameOut (T := T) cap Q) :=
  ⟨fun _ => ⟨fun _ _ => rfl, fun _ _ _ => rfl⟩,
   fun h1 h2 => ⟨fun x hx => (h2.links x hx).trans (h1.links x hx), fun x hx hc => (h2.data x hx hc).trans (h1.data x hx hc)⟩⟩

/-- The same for a forest with the captured state of a callback. -/
def SameS {S : Type} (cap : Nat) (Q : Nat → Prop) (p q : Forest T × S) : Prop := SameIn cap Q p.1 q.1 ∧ p.2 = q.2
def OutS {S : Type} (cap : Nat) (Q : Nat → Prop) (p q : Forest T × S) : Prop := SameOut cap Q p.1 q.1

theorem outS_ord {S : Type} : PreOrd (OutS (T := T) (S := S) cap Q) :=
  ⟨fun _ => sameOut_ord.refl _, fun h1 h2 => sameOut_ord.trans h1 h2⟩

namespace Forest

theorem onHier_loc {α : Type} {good : α → Prop} {m : M Hier α} (hm : Loc (Same cap Q) (Out Q) m good) :
    Loc (SameIn (T := T) cap Q) (SameOut cap Q) (onHier m) good := by
  refine Loc.zoom hm (fun t t' h => h.same) fun t t' s s' h hs ho ho' => ⟨?_, ?_, ?_⟩
  · refine ⟨hs.size, h.dataSize, hs.links, h.data, hs.closed, fun x hx => ?_⟩
    rcases hx with hx | hx
    · exact hs.fresh x hx
    · exact h.separate.fresh x (.inr hx)
  · exact ⟨ho, fun _ _ _ => rfl⟩
  · exact ⟨ho', fun _ _ _ => rfl⟩

theorem onForest_loc {S α : Type} {good : α → Prop} {m : M (Forest T) α} (hm : Loc (SameIn cap Q) (SameOut cap Q) m good) :
    Loc (SameS (S := S) cap Q) (OutS cap Q) (onForest m) good :=
  Loc.zoom hm (fun _ _ h => h.1) fun _ _ _ _ h hs ho ho' => ⟨⟨hs, h.2⟩, ho, ho'⟩

theorem readHier_loc {α : Type} {good : α → Prop} {r : Hier → R α} (hr : LocR (Same cap Q) r good) :
    Loc (SameIn (T := T) cap Q) (SameOut cap Q) (M.read fun f => r f.hier) good :=
  Loc.read sameOut_ord fun f g h => hr f.hier g.hier h.same

theorem readHierS_loc {S α : Type} {good : α → Prop} {r : Hier → R α} (hr : LocR (Same cap Q) r good) :
    Loc (SameS (T := T) (S := S) cap Q) (OutS cap Q) (M.read fun p => r p.1.hier) good :=
  Loc.read outS_ord fun f g h => hr f.1.hier g.1.hier h.1.same

theorem readC_loc {α : Type} {good : α → Prop} {r : R α} (h : ∀ a, r = .ok a → good a) :
    Loc (SameIn (T := T) cap Q) (SameOut cap Q) (M.read fun _ => r) good := Loc.read sameOut_ord (LocR.const h)

theorem readCS_loc {S α : Type} {good : α → Prop} {r : R α} (h : ∀ a, r = .ok a → good a) :
    Loc (SameS (T := T) (S := S) cap Q) (OutS cap Q) (M.read fun _ => r) good := Loc.read outS_ord (LocR.const h)

theorem getData_raw {f g : Forest T} (h : SameIn cap Q f g) {x : Nat} (hx : Q x) : f.data[x]? = g.data[x]? := by
  have h1 := h.data x hx
  have h2 := h.dataSize
  unfold getData at h1
  by_cases hl : x < f.data.length
  · rw [List.getElem?_eq_getElem hl, List.getElem?_eq_getElem (h2 ▸ hl)] at h1 ⊢
    simpa using h1
  · rw [List.getElem?_eq_none (by omega), List.getElem?_eq_none (by omega)]

theorem isAlive_same {f g : Forest T} (h : SameIn cap Q f g) {x : Nat} (hx : Q x) : f.isAlive x = g.isAlive x := by
  unfold isAlive; rw [getData_raw h hx]

theorem setAt_loc {f g : Forest T} (h : SameIn cap Q f g) {x : Nat} (hx : Q x) (o : Option T) :
    SameIn cap Q ⟨f.hier, f.data.set x o⟩ ⟨g.hier, g.data.set x o⟩ ∧ SameOut cap Q f ⟨f.hier, f.data.set x o⟩ := by
  refine ⟨⟨h.size, by simpa using h.dataSize, h.links, fun y hy => ?_, h.separate.closed, fun y hy => ?_⟩,
    fun _ _ => rfl, fun y hy hyc => ?_⟩
  · unfold getData
    simp only [List.getElem?_set]
    rw [h.dataSize, getData_raw h hy]
  · exact h.separate.fresh y (by simpa using hy)
  · have : x ≠ y := fun e => hy (e ▸ hx)
    simp [this]

theorem setData_loc {x : Nat} (hx : Q x) (v : T) : Loc (SameIn cap Q) (SameOut cap Q) (setData x v) (fun _ => True) :=
  fun f g h => by
  unfold setData
  rw [← h.data x hx]
  cases e : f.getData x with
  | none => exact ⟨f, g, h, sameOut_ord.refl _, sameOut_ord.refl _, .inl ⟨_, rfl, rfl, trivial⟩⟩
  | some d =>
    refine ⟨⟨f.hier, f.data.set x (some v)⟩, ⟨g.hier, g.data.set x (some v)⟩, (setAt_loc h hx _).1, (setAt_loc h hx _).2,
      ⟨fun _ _ => rfl, fun y hy hyc => ?_⟩, .inl ⟨_, rfl, rfl, trivial⟩⟩
    have : x ≠ y := fun e => hy (e ▸ hx)
    simp [this]

theorem takeData_loc {x : Nat} (hx : Q x) : Loc (SameIn (T := T) cap Q) (SameOut cap Q) (takeData x) (fun _ => True) :=
  fun f g h => by
  unfold takeData
  rw [← getData_raw h hx]
  cases e : f.data[x]? with
  | none => exact ⟨f, g, h, sameOut_ord.refl _, sameOut_ord.refl _, .inr ⟨_, rfl, rfl⟩⟩
  | some o =>
    cases o with
    | none => exact ⟨f, g, h, sameOut_ord.refl _, sameOut_ord.refl _, .inr ⟨_, rfl, rfl⟩⟩
    | some d =>
      refine ⟨⟨f.hier, f.data.set x none⟩, ⟨g.hier, g.data.set x none⟩, (setAt_loc h hx _).1, (setAt_loc h hx _).2,
        ⟨fun _ _ => rfl, fun y hy hyc => ?_⟩, .inl ⟨_, rfl, rfl, trivial⟩⟩
      have : x ≠ y := fun e => hy (e ▸ hx)
      simp [this]

theorem pushData_loc (d : T) : Loc (SameIn cap Q) (SameOut cap Q) (pushData d) (fun _ => True) := by
  have hout : ∀ f g : Forest T, SameIn cap Q f g → SameOut cap Q f ⟨f.hier, f.data ++ [some d]⟩ ∧
      SameOut cap Q g ⟨g.hier, g.data ++ [some d]⟩ := fun f g h => by
    refine ⟨⟨fun _ _ => rfl, fun y hy hyc => ?_⟩, ⟨fun _ _ => rfl, fun y hy hyc => ?_⟩⟩
    · have : y < f.data.length := Nat.lt_of_not_le fun hle => hy (h.separate.fresh y (.inr hle) hyc)
      simp [List.getElem?_append_left this]
    · have : y < g.data.length := by
        rw [← h.dataSize]; exact Nat.lt_of_not_le fun hle => hy (h.separate.fresh y (.inr hle) hyc)
      simp [List.getElem?_append_left this]
  refine Loc.modify _ (fun f g h => ⟨⟨h.size, by simpa using h.dataSize, h.links, fun y hy => ?_, h.separate.closed,
    fun y hy => ?_⟩, (hout f g h).1, (hout f g h).2⟩) trivial
  · have hraw := getData_raw h hy
    have hsz := h.dataSize
    unfold getData
    dsimp only
    by_cases hl : y < f.data.length
    · rw [List.getElem?_append_left hl, List.getElem?_append_left (hsz ▸ hl), hraw]
    · rw [List.getElem?_append_right (by omega), List.getElem?_append_right (by omega), hsz]
  · refine h.separate.fresh y ?_
    rcases hy with hy | hy
    · exact .inl hy
    · simp at hy; exact .inr (by omega)

theorem createRoot_loc (cap : Nat) (d : T) : Loc (SameIn cap Q) (SameOut cap Q) (createRoot cap d) Q := by
  unfold createRoot
  refine Loc.bind sameOut_ord (onHier_loc (Hier.createRoot_loc cap)) fun n hn => ?_
  refine Loc.bind (good := fun _ => True) sameOut_ord
    (Loc.read sameOut_ord fun f g h => ⟨by rw [h.dataSize], fun _ _ => trivial⟩) fun len _ => ?_
  refine Loc.ite (fun _ => Loc.panic sameOut_ord _) fun _ => ?_
  exact Loc.bind sameOut_ord (pushData_loc d) fun _ _ => Loc.pure sameOut_ord hn

theorem createInsert_loc (cap : Nat) (d : T) {dest : InsertAs} (hd : Q dest.place.anchor) :
    Loc (SameIn cap Q) (SameOut cap Q) (createInsertMomo cap d dest) Q := by
  unfold createInsertMomo
  refine Loc.bind (good := fun _ => True) sameOut_ord (Loc.read sameOut_ord fun f g h => ⟨?_, fun _ _ => trivial⟩)
    fun v _ => ?_
  · unfold Hier.isValid; rw [h.size]
  refine Loc.ite (fun _ => Loc.panic sameOut_ord _) fun _ => ?_
  refine Loc.bind sameOut_ord (onHier_loc (Hier.createRoot_loc cap)) fun n hn => ?_
  refine Loc.bind sameOut_ord (pushData_loc d) fun _ _ => ?_
  refine Loc.bind sameOut_ord (onHier_loc (Hier.insert_loc hn hd)) fun r _ => ?_
  cases r with
  | error _ => exact Loc.panic sameOut_ord _
  | ok _ => exact Loc.pure sameOut_ord hn

theorem insert_loc {x : Nat} {dest : InsertAs} (hx : Q x) (hd : Q dest.place.anchor) :
    Loc (SameIn (T := T) cap Q) (SameOut cap Q) (insert x dest) (fun _ => True) := onHier_loc (Hier.insert_loc hx hd)
theorem detach_loc {x : Nat} (hx : Q x) : Loc (SameIn (T := T) cap Q) (SameOut cap Q) (detach x) (fun _ => True) :=
  onHier_loc (Hier.detach_loc hx)
theorem detachSingle_loc {x : Nat} (hx : Q x) : Loc (SameIn (T := T) cap Q) (SameOut cap Q) (detachSingle x) (fun _ => True) :=
  onHier_loc (Hier.detachSingle_loc hx)

/-! ### Removal -/

theorem callHook_loc {S : Type} (hook : Hook S T) (d : T) :
    Loc (SameS cap Q) (OutS cap Q) (callHook hook d) (fun _ => True) := fun p q h => by
  obtain ⟨f, s⟩ := p
  obtain ⟨g, s'⟩ := q
  obtain ⟨h, hs⟩ := h
  dsimp only at hs h
  subst hs
  unfold callHook
  dsimp only
  cases hook s d with
  | ok c => exact ⟨(f, c), (g, c), ⟨h, rfl⟩, sameOut_ord.refl f, sameOut_ord.refl g, .inl ⟨_, rfl, rfl, trivial⟩⟩
  | error c => exact ⟨(f, c), (g, c), ⟨h, rfl⟩, sameOut_ord.refl f, sameOut_ord.refl g, .inr ⟨_, rfl, rfl⟩⟩

theorem closePanicSafe_loc {S : Type} (hook : Hook S T) {x : Nat} (hx : Q x) :
    Loc (SameS cap Q) (OutS cap Q) (closePanicSafe hook x) (fun _ => True) := by
  unfold closePanicSafe
  refine Loc.bind outS_ord (onForest_loc (good := fun _ => True) ?_) fun d _ => callHook_loc hook d
  refine Loc.bind sameOut_ord (onHier_loc (Hier.nbrOf_loc hx _)) fun nb hn => ?_
  refine Loc.bind (good := fun _ => True) sameOut_ord (readC_loc fun _ _ => trivial) fun fc _ => ?_
  refine Loc.ite (fun _ => Loc.panic sameOut_ord _) fun _ => ?_
  refine Loc.bind sameOut_ord (detach_loc hx) fun _ _ => ?_
  refine Loc.bind sameOut_ord (onHier_loc (Hier.nbrOf_loc hx _)) fun nb hn => ?_
  refine Loc.bind (good := fun _ => True) sameOut_ord (readC_loc fun _ _ => trivial) fun al _ => ?_
  refine Loc.ite (fun _ => Loc.panic sameOut_ord _) fun _ => ?_
  exact Loc.bind sameOut_ord (onHier_loc (Hier.makeRemoved_loc hx _)) fun _ _ => takeData_loc hx

theorem closeForce_loc {S : Type} (hook : Hook S T) {x : Nat} (hx : Q x) :
    Loc (SameS cap Q) (OutS cap Q) (closeForce hook x) (fun _ => True) := by
  unfold closeForce
  refine Loc.bind outS_ord (onForest_loc (good := fun _ => True) ?_) fun d _ => callHook_loc hook d
  exact Loc.bind sameOut_ord (onHier_loc (Hier.forceMakeRemoved_loc hx _)) fun _ _ => takeData_loc hx

theorem removeLoop_loc {S : Type} {close : Nat → M (Forest T × S) Unit}
    (hc : ∀ x, Q x → Loc (SameS cap Q) (OutS cap Q) (close x) (fun _ => True)) : ∀ (fuel : Nat) {st : Safe.St},
    InE Q st.next ∧ Q st.root → Loc (SameS cap Q) (OutS cap Q) (removeLoop close fuel st) (fun _ => True)
  | 0, _, _ => by unfold removeLoop; exact Loc.throw outS_ord _
  | fuel + 1, st, hst => by
    unfold removeLoop
    refine Loc.bind outS_ord (readHierS_loc (Hier.safeNext_loc hst)) fun q hq => ?_
    obtain ⟨ev, st'⟩ := q
    cases ev with
    | none => exact Loc.pure outS_ord trivial
    | some e =>
      cases e with
      | opn id => exact removeLoop_loc hc fuel hq.2
      | cls id => exact Loc.bind outS_ord (hc id (hq.1 _ rfl)) fun _ _ => removeLoop_loc hc fuel hq.2

theorem removeWith_loc {S : Type} {close : Nat → M (Forest T × S) Unit}
    (hc : ∀ x, Q x → Loc (SameS cap Q) (OutS cap Q) (close x) (fun _ => True)) {x : Nat} (hx : Q x) :
    Loc (SameS cap Q) (OutS cap Q) (removeWith close x) (fun _ => True) := by
  unfold removeWith
  refine Loc.bind (good := fun _ => True) outS_ord (Loc.read outS_ord fun f g h => ⟨?_, fun _ _ => trivial⟩) fun al _ => ?_
  · rw [h.1.same.alive hx]
  refine Loc.ite (fun _ => Loc.pure outS_ord trivial) fun _ => ?_
  refine Loc.bind outS_ord (onForest_loc (detach_loc hx)) fun _ _ => ?_
  refine Loc.bind outS_ord (readHierS_loc (Hier.safeNew_loc hx)) fun st hst => ?_
  refine Loc.bind (good := fun _ => True) outS_ord (Loc.read outS_ord fun f g h => ⟨?_, fun _ _ => trivial⟩) fun fu _ => ?_
  · unfold removeFuel; rw [h.1.size]
  exact removeLoop_loc hc fu hst

theorem removeHooked_loc {S : Type} (hook : Hook S T) {x : Nat} (hx : Q x) :
    Loc (SameS cap Q) (OutS cap Q) (removeHooked hook x) (fun _ => True) :=
  removeWith_loc (fun _ h => closeForce_loc hook h) hx

theorem removeHookedPanicSafe_loc {S : Type} (hook : Hook S T) {x : Nat} (hx : Q x) :
    Loc (SameS cap Q) (OutS cap Q) (removeHookedPanicSafe hook x) (fun _ => True) :=
  removeWith_loc (fun _ h => closePanicSafe_loc hook h) hx

theorem remove_loc {x : Nat} (hx : Q x) : Loc (SameIn (T := T) cap Q) (SameOut cap Q) (remove x) (fun _ => True) := fun f g h => by
  obtain ⟨t, t', h1, h2, h3, h4⟩ := removeHooked_loc (S := Unit) (fun s _ => .ok s) hx (f, ()) (g, ()) ⟨h, rfl⟩
  refine ⟨t.1, t'.1, h1.1, h2, h3, ?_⟩
  unfold remove
  rcases h4 with ⟨a, e1, e2, _⟩ | ⟨e, e1, e2⟩
  · rw [e1, e2]; exact .inl ⟨(), rfl, rfl, trivial⟩
  · rw [e1, e2]; exact .inr ⟨e, rfl, rfl⟩

/-! ### Copies -/

theorem callMap_loc {S : Type} (hook : MapHook S) (a b : Nat) :
    Loc (SameS (T := T) cap Q) (OutS cap Q) (callMap hook a b) (fun _ => True) := fun p q h => by
  obtain ⟨f, s⟩ := p
  obtain ⟨g, s'⟩ := q
  obtain ⟨h, hs⟩ := h
  dsimp only at hs h
  subst hs
  unfold callMap
  dsimp only
  cases hook s a b with
  | ok c => exact ⟨(f, c), (g, c), ⟨h, rfl⟩, sameOut_ord.refl f, sameOut_ord.refl g, .inl ⟨_, rfl, rfl, trivial⟩⟩
  | error c => exact ⟨(f, c), (g, c), ⟨h, rfl⟩, sameOut_ord.refl f, sameOut_ord.refl g, .inr ⟨_, rfl, rfl⟩⟩

/-- A source of copies that reads from the part only. -/
structure SrcLoc {τ : Type} (cap : Nat) (Q : Nat → Prop) (src : CloneSrc T τ) (good : τ → Prop) (ok : Nat → Prop) : Prop where
  next : ∀ tr, good tr → LocR (SameIn cap Q) (fun f => src.next f tr) (fun q => (∀ e, q.1 = some e → ok e.node) ∧ good q.2)
  data : ∀ (cl : T → Option T) x, ok x → LocR (SameIn cap Q) (fun f => clonedData cl (src.data f) x) (fun _ => True)

theorem cloneNextNode_loc {τ : Type} {src : CloneSrc T τ} {good : τ → Prop} {ok : Nat → Prop} (cap : Nat)
    (hs : SrcLoc cap Q src good ok) (cl : T → Option T) : ∀ (fuel : Nat) {cur : Nat} {tr : τ}, Q cur → good tr →
    Loc (SameIn cap Q) (SameOut cap Q) (cloneNextNode cap cl src fuel cur tr) (fun q => Q q.2.1 ∧ good q.2.2)
  | 0, _, _, _, _ => by unfold cloneNextNode; exact Loc.throw sameOut_ord _
  | fuel + 1, cur, tr, hc, ht => by
    unfold cloneNextNode
    refine Loc.bind sameOut_ord (Loc.read sameOut_ord (hs.next tr ht)) fun q hq => ?_
    obtain ⟨ev, tr'⟩ := q
    cases ev with
    | none => exact Loc.panic sameOut_ord _
    | some e =>
      cases e with
      | opn id =>
        refine Loc.bind sameOut_ord (Loc.read sameOut_ord (hs.data cl id (hq.1 _ rfl))) fun d _ => ?_
        refine Loc.bind sameOut_ord (createInsert_loc cap d (dest := .lastChildOf cur) hc) fun n hn => ?_
        exact Loc.pure sameOut_ord ⟨hn, hq.2⟩
      | cls id =>
        refine Loc.bind sameOut_ord (onHier_loc (Hier.nbrOf_loc hc _)) fun nb hn => ?_
        refine Loc.bind sameOut_ord (readC_loc fun _ h => Hier.getParent_in hn h) fun p hp => ?_
        cases p with
        | none => exact Loc.pure sameOut_ord ⟨hc, hq.2⟩
        | some p => exact cloneNextNode_loc cap hs cl fuel (hp p rfl) hq.2

theorem cloneLoop_loc {S τ : Type} {src : CloneSrc T τ} {good : τ → Prop} {ok : Nat → Prop} (cap : Nat)
    (hs : SrcLoc cap Q src good ok) (cl : T → Option T) (hook : MapHook S) (inner : Nat) : ∀ (fuel : Nat) {cur : Nat} {tr : τ}, Q cur → good tr →
    Loc (SameS cap Q) (OutS cap Q) (cloneLoop cap cl src hook inner fuel cur tr) (fun q => Q q.1 ∧ good q.2)
  | 0, _, _, _, _ => by unfold cloneLoop; exact Loc.throw outS_ord _
  | fuel + 1, cur, tr, hc, ht => by
    unfold cloneLoop
    refine Loc.bind outS_ord (onForest_loc (cloneNextNode_loc cap hs cl inner hc ht)) fun q hq => ?_
    obtain ⟨o, cur', tr'⟩ := q
    cases o with
    | none => exact Loc.pure outS_ord hq
    | some id => exact Loc.bind outS_ord (callMap_loc hook id cur') fun _ _ => cloneLoop_loc cap hs cl hook inner fuel hq.1 hq.2

theorem localSrc_loc : SrcLoc (T := T) cap Q localSrc (fun st => InE Q st.next ∧ Q st.root) Q :=
  ⟨fun _ h f g hs => Hier.safeNext_loc h f.hier g.hier hs.same,
   fun cl x hx f g hs => ⟨by
    unfold clonedData localSrc
    dsimp only
    rw [getData_raw hs hx], fun _ _ => trivial⟩⟩

theorem foreignSrc_loc (fsrc : Forest T) : SrcLoc (T := T) cap Q (foreignSrc fsrc) (fun _ => True) (fun _ => True) :=
  ⟨fun _ _ _ _ _ => ⟨rfl, fun _ _ => ⟨fun _ _ => trivial, trivial⟩⟩, fun _ _ _ _ _ _ => ⟨rfl, fun _ _ => trivial⟩⟩

theorem noHook_loc {α : Type} {m : M (Forest T × Unit) α} {good : α → Prop} (hm : Loc (SameS cap Q) (OutS cap Q) m good) :
    Loc (SameIn cap Q) (SameOut cap Q) (noHook m) good := fun f g h => by
  obtain ⟨t, t', h1, h2, h3, h4⟩ := hm (f, ()) (g, ()) ⟨h, rfl⟩
  refine ⟨t.1, t'.1, h1.1, h2, h3, ?_⟩
  unfold noHook
  rcases h4 with ⟨a, e1, e2, e3⟩ | ⟨e, e1, e2⟩
  · rw [e1, e2]; exact .inl ⟨a, rfl, rfl, e3⟩
  · rw [e1, e2]; exact .inr ⟨e, rfl, rfl⟩

theorem cloneLocal_loc {S : Type} (cap : Nat) (cl : T → Option T) (hook : MapHook S) {x : Nat} (hx : Q x) :
    Loc (SameS cap Q) (OutS cap Q) (cloneLocalTreeWithIdMapping cap cl hook x) Q := by
  unfold cloneLocalTreeWithIdMapping
  refine Loc.bind (good := fun _ => True) outS_ord (Loc.read outS_ord fun f g h => ⟨?_, fun _ _ => trivial⟩) fun d _ => ?_
  · rw [h.1.data x hx]
  refine Loc.bind (good := fun _ => True) outS_ord (readCS_loc fun _ _ => trivial) fun d _ => ?_
  refine Loc.bind outS_ord (onForest_loc (createRoot_loc cap d)) fun root hroot => ?_
  refine Loc.bind outS_ord (callMap_loc hook x root) fun _ _ => ?_
  refine Loc.bind outS_ord (readHierS_loc (Hier.safeNew_loc hx)) fun tr htr => ?_
  refine Loc.bind outS_ord (readHierS_loc (Hier.safeNext_loc htr)) fun q hq => ?_
  refine Loc.bind outS_ord (cloneLoop_loc cap localSrc_loc cl hook _ _ hroot hq.2) fun q _ => ?_
  exact Loc.ite (fun _ => Loc.panic outS_ord _) fun _ => Loc.pure outS_ord hroot

theorem cloneForeign_loc {S : Type} (cap : Nat) (cl : T → Option T) (hook : MapHook S) (fsrc : Forest T) (x : Nat) :
    Loc (SameS cap Q) (OutS cap Q) (cloneForeignTreeWithIdMapping cap cl hook fsrc x) Q := by
  unfold cloneForeignTreeWithIdMapping
  refine Loc.bind (good := fun _ => True) outS_ord (readCS_loc fun _ _ => trivial) fun d _ => ?_
  refine Loc.bind (good := fun _ => True) outS_ord (readCS_loc fun _ _ => trivial) fun d _ => ?_
  refine Loc.bind outS_ord (onForest_loc (createRoot_loc cap d)) fun root hroot => ?_
  refine Loc.bind outS_ord (callMap_loc hook x root) fun _ _ => ?_
  refine Loc.bind (good := fun _ => True) outS_ord (readCS_loc fun _ _ => trivial) fun tr _ => ?_
  refine Loc.bind (good := fun _ => True) outS_ord (readCS_loc fun _ _ => trivial) fun q _ => ?_
  refine Loc.bind outS_ord (cloneLoop_loc cap (foreignSrc_loc fsrc) cl hook _ _ hroot trivial) fun q _ => ?_
  refine Loc.ite (fun _ => Loc.panic outS_ord _) fun _ => ?_
  refine Loc.bind (good := fun _ => True) outS_ord (readCS_loc fun _ _ => trivial) fun q _ => ?_
  exact Loc.ite (fun _ => Loc.panic outS_ord _) fun _ => Loc.pure outS_ord hroot

end Forest

theorem anchor_adopt (self : Nat) (dest : AdoptAs) : (dest.insertWithAnchor self).place.anchor = self := by
  cases dest <;> rfl

namespace NodeMut

theorem create_loc (cap : Nat) {self : Nat} (hs : Q self) (d : T) (dest : AdoptAs) :
    Loc (SameIn cap Q) (SameOut cap Q) (create cap self d dest) Q :=
  Forest.createInsert_loc cap d (by rw [anchor_adopt]; exact hs)
theorem tryAdopt_loc {self x : Nat} (hs : Q self) (hx : Q x) (dest : AdoptAs) :
    Loc (SameIn (T := T) cap Q) (SameOut cap Q) (tryAdopt self x dest) (fun _ => True) :=
  Forest.onHier_loc (Hier.insert_loc hx (by rw [anchor_adopt]; exact hs))
theorem adopt_loc {self x : Nat} (hs : Q self) (hx : Q x) (dest : AdoptAs) :
    Loc (SameIn (T := T) cap Q) (SameOut cap Q) (adopt self x dest) (fun _ => True) := by
  unfold adopt
  refine Loc.bind sameOut_ord (tryAdopt_loc hs hx dest) fun r _ => ?_
  cases r with
  | error _ => exact Loc.panic sameOut_ord _
  | ok _ => exact Loc.pure sameOut_ord trivial

end NodeMut

/-! ### Builders -/
namespace Nest

/-- The same builder on forests that are the same in the part. -/
structure SameB (cap : Nat) (Q : Nat → Prop) (b c : Nest T) : Prop where
  forest : SameIn cap Q b.forest c.forest
  root : b.root = c.root
  current : b.current = c.current
  inRoot : Q b.root
  inCur : InO Q b.current

def OutB (cap : Nat) (Q : Nat → Prop) (b c : Nest T) : Prop := SameOut cap Q b.forest c.forest

theorem outB_ord : PreOrd (OutB (T := T) cap Q) := ⟨fun _ => sameOut_ord.refl _, fun h1 h2 => sameOut_ord.trans h1 h2⟩

theorem onForest_loc {α : Type} {good : α → Prop} {m : M (Forest T) α} (hm : Loc (SameIn cap Q) (SameOut cap Q) m good) :
    Loc (SameB cap Q) (OutB cap Q) (onForest m) good :=
  Loc.zoom hm (fun _ _ h => h.forest) fun _ _ _ _ h hs ho ho' => ⟨⟨hs, h.root, h.current, h.inRoot, h.inCur⟩, ho, ho'⟩

theorem expectOk_loc (r : Except StructureError Unit) (msg : String) :
    Loc (SameB (T := T) cap Q) (OutB cap Q) (expectOk r msg) (fun _ => True) := by
  unfold expectOk
  cases r with
  | ok u => exact Loc.pure outB_ord trivial
  | error e => exact Loc.panic outB_ord _

theorem place_loc {x : Nat} (hx : Q x) : Loc (SameB (T := T) cap Q) (OutB cap Q) (place x) (fun _ => True) := fun b c h => by
  unfold place
  rw [← h.current, ← h.root]
  cases e : b.current with
  | some p =>
    exact Loc.bind outB_ord (onForest_loc (Forest.insert_loc (dest := .nextSiblingOf p) hx (h.inCur p e)))
      (fun r _ => expectOk_loc r _) b c h
  | none =>
    exact Loc.bind outB_ord (onForest_loc (Forest.insert_loc (dest := .firstChildOf b.root) hx h.inRoot))
      (fun r _ => expectOk_loc r _) b c h

theorem edit_loc (g : Nest T → Nest T) (hg : ∀ b c, SameB cap Q b c → SameB cap Q (g b) (g c)) (hf : ∀ b, (g b).forest = b.forest) :
    Loc (SameB cap Q) (OutB cap Q) (M.modify g) (fun _ => True) :=
  Loc.modify g (fun b c h => ⟨hg b c h, by unfold OutB; rw [hf]; exact sameOut_ord.refl _,
    by unfold OutB; rw [hf]; exact sameOut_ord.refl _⟩) trivial

theorem addChild_loc (cap : Nat) (d : T) : Loc (SameB cap Q) (OutB cap Q) (addChild cap d) (fun _ => True) := by
  unfold addChild
  refine Loc.bind outB_ord (onForest_loc (Forest.createRoot_loc cap d)) fun n hn => ?_
  refine Loc.bind outB_ord (place_loc hn) fun _ _ => ?_
  exact edit_loc _ (fun b c h => ⟨h.forest, h.root, rfl, h.inRoot, Hier.InO.some hn⟩) fun _ => rfl

theorem createTree_loc (cap : Nat) (d : T) {k : M (Nest T) Unit} (hk : Loc (SameB cap Q) (OutB cap Q) k (fun _ => True)) :
    Loc (SameB cap Q) (OutB cap Q) (createTree cap d k) (fun _ => True) := by
  unfold createTree
  refine Loc.bind outB_ord (addChild_loc cap d) fun _ _ => ?_
  refine Loc.bind (good := Q) outB_ord (Loc.read outB_ord fun b c h => ⟨by rw [h.current], fun a ha => ?_⟩) fun nr hnr => ?_
  · cases e : b.current with
    | none => rw [e] at ha; cases ha
    | some z => rw [e] at ha; cases ha; exact h.inCur _ e
  refine Loc.bind (good := fun _ => True) outB_ord (edit_loc _ (fun b c h =>
    ⟨h.forest, h.root, rfl, h.inRoot, Hier.InO.none⟩) fun _ => rfl) fun _ _ => ?_
  refine Loc.bind (good := Q) outB_ord (Loc.read outB_ord fun b c h => ⟨by rw [h.root], fun a ha => ?_⟩) fun orr hor => ?_
  · cases ha; exact h.inRoot
  refine Loc.bind (good := fun _ => True) outB_ord (edit_loc _ (fun b c h =>
    ⟨h.forest, rfl, h.current, hnr, h.inCur⟩) fun _ => rfl) fun _ _ => ?_
  refine Loc.bind outB_ord hk fun _ _ => ?_
  refine Loc.bind (good := fun _ => True) outB_ord (edit_loc _ (fun b c h =>
    ⟨h.forest, h.root, rfl, h.inRoot, Hier.InO.some hnr⟩) fun _ => rfl) fun _ _ => ?_
  exact edit_loc _ (fun b c h => ⟨h.forest, rfl, h.current, hor, h.inCur⟩) fun _ => rfl

end Nest

namespace NestCall
open Nest (SameB OutB outB_ord)

mutual
theorem exec_loc (cap : Nat) : ∀ c : NestCall T, Loc (SameB cap Q) (OutB cap Q) (exec cap c) (fun _ => True)
  | .addChild d => by unfold exec; exact Nest.addChild_loc cap d
  | .createTree d cs => by unfold exec; exact Nest.createTree_loc cap d (execL_loc cap cs)
  | .boom => by unfold exec; exact Loc.panic outB_ord _
theorem execL_loc (cap : Nat) : ∀ cs : List (NestCall T), Loc (SameB cap Q) (OutB cap Q) (execL cap cs) (fun _ => True)
  | [] => by unfold execL; exact Loc.pure outB_ord trivial
  | c :: cs => by unfold execL; exact Loc.bind outB_ord (exec_loc cap c) fun _ _ => execL_loc cap cs
end
end NestCall

theorem nestBuild_loc (cap : Nat) (d : T) (cs : List (NestCall T)) :
    Loc (SameIn cap Q) (SameOut cap Q) (nestBuild cap d cs) (fun _ => True) := fun f g h => by
  obtain ⟨t, t', h1, h2, h3, h4⟩ := Forest.createRoot_loc cap d f g h
  unfold nestBuild Nest.new
  rcases h4 with ⟨r, e1, e2, hr⟩ | ⟨e, e1, e2⟩
  · rw [e1, e2]
    dsimp only
    obtain ⟨u, u', g1, g2, g3, g4⟩ := NestCall.execL_loc cap cs ⟨t, r, none⟩ ⟨t', r, none⟩ ⟨h1, rfl, rfl, hr, Hier.InO.none⟩
    refine ⟨u.forest, u'.forest, g1.forest, sameOut_ord.trans h2 g2, sameOut_ord.trans h3 g3, ?_⟩
    rcases g4 with ⟨a, e3, e4, _⟩ | ⟨e, e3, e4⟩
    · rw [e3, e4]
      refine .inl ⟨u.getRoot, rfl, ?_, trivial⟩
      have := g1.root
      unfold Nest.getRoot
      rw [this]
    · rw [e3, e4]; exact .inr ⟨e, rfl, rfl⟩
  · rw [e1, e2]
    exact ⟨t, t', h1, h2, h3, .inr ⟨e, rfl, rfl⟩⟩

namespace Chain

/-- The same builder on forests that are the same in the part. -/
structure SameC (cap : Nat) (Q : Nat → Prop) (b c : Chain T) : Prop where
  forest : SameIn cap Q b.forest c.forest
  root : b.root = c.root
  current : b.current = c.current
  inCur : Q b.current

def OutC (cap : Nat) (Q : Nat → Prop) (b c : Chain T) : Prop := SameOut cap Q b.forest c.forest

theorem outC_ord : PreOrd (OutC (T := T) cap Q) := ⟨fun _ => sameOut_ord.refl _, fun h1 h2 => sameOut_ord.trans h1 h2⟩

theorem onForest_loc {α : Type} {good : α → Prop} {m : M (Forest T) α} (hm : Loc (SameIn cap Q) (SameOut cap Q) m good) :
    Loc (SameC cap Q) (OutC cap Q) (onForest m) good :=
  Loc.zoom hm (fun _ _ h => h.forest) fun _ _ _ _ h hs ho ho' => ⟨⟨hs, h.root, h.current, h.inCur⟩, ho, ho'⟩

theorem setCur_loc {n : Nat} (hn : Q n) :
    Loc (SameC cap Q) (OutC cap Q) (M.modify fun b : Chain T => { b with current := n }) (fun _ => True) :=
  Loc.modify (fun b : Chain T => { b with current := n })
    (fun b c h => ⟨⟨h.forest, h.root, rfl, hn⟩, sameOut_ord.refl b.forest, sameOut_ord.refl c.forest⟩) trivial

theorem child_loc (cap : Nat) (d : T) : Loc (SameC cap Q) (OutC cap Q) (child cap d) (fun _ => True) := fun b c h => by
  unfold child
  rw [← h.current]
  exact Loc.bind outC_ord (onForest_loc (Forest.createInsert_loc cap d (dest := .lastChildOf b.current) h.inCur))
    (fun n hn => setCur_loc hn) b c h

theorem sibling_loc (cap : Nat) (d : T) : Loc (SameC cap Q) (OutC cap Q) (sibling cap d) (fun _ => True) := fun b c h => by
  unfold sibling
  rw [← h.current]
  exact Loc.bind outC_ord (onForest_loc (Forest.createInsert_loc cap d (dest := .nextSiblingOf b.current) h.inCur))
    (fun n hn => setCur_loc hn) b c h

theorem parentOf_loc : LocR (SameC (T := T) cap Q) parentOfCurrent (InO Q) := fun b c h => by
  unfold parentOfCurrent Forest.node
  rw [← h.current, Forest.isAlive_same h.forest h.inCur]
  cases c.forest.isAlive b.current with
  | false => exact Eq2.err
  | true =>
    simp only [Bool.not_true, Bool.false_eq_true, if_false, expect]
    unfold Forest.parentId Forest.nbr
    lr (Hier.nbr_loc h.inCur "[validity] the node has been checked to be alive" _ _ h.forest.same) with nb hn
    exact Eq2.const fun _ e => Hier.getParent_in hn e

theorem tryParent_loc : Loc (SameC (T := T) cap Q) (OutC cap Q) tryParent (fun _ => True) := by
  unfold tryParent
  refine Loc.bind outC_ord (Loc.read outC_ord parentOf_loc) fun p hp => ?_
  cases p with
  | none => exact Loc.pure outC_ord trivial
  | some p => exact Loc.bind outC_ord (setCur_loc (hp p rfl)) fun _ _ => Loc.pure outC_ord trivial

theorem parent_loc : Loc (SameC (T := T) cap Q) (OutC cap Q) parent (fun _ => True) := by
  unfold parent
  refine Loc.bind outC_ord (Loc.read outC_ord parentOf_loc) fun p hp => ?_
  refine Loc.bind outC_ord (Loc.read outC_ord fun _ _ _ => Hier.expect_in hp _) fun p hp => ?_
  exact setCur_loc hp

end Chain

namespace ChainCall
open Chain (SameC OutC outC_ord)

theorem exec_loc (cap : Nat) : ∀ c : ChainCall T, Loc (SameC cap Q) (OutC cap Q) (exec cap c) (fun _ => True)
  | .child d => Chain.child_loc cap d
  | .sibling d => Chain.sibling_loc cap d
  | .parent => Chain.parent_loc
  | .tryParent => Loc.bind outC_ord Chain.tryParent_loc fun _ _ => Loc.pure outC_ord trivial

theorem execL_loc (cap : Nat) : ∀ cs : List (ChainCall T), Loc (SameC cap Q) (OutC cap Q) (execL cap cs) (fun _ => True)
  | [] => Loc.pure outC_ord trivial
  | c :: cs => Loc.bind outC_ord (exec_loc cap c) fun _ _ => execL_loc cap cs
end ChainCall

theorem chainBuild_loc (cap : Nat) (d : T) (cs : List (ChainCall T)) :
    Loc (SameIn cap Q) (SameOut cap Q) (chainBuild cap d cs) (fun _ => True) := fun f g h => by
  obtain ⟨t, t', h1, h2, h3, h4⟩ := Forest.createRoot_loc cap d f g h
  unfold chainBuild Chain.new
  rcases h4 with ⟨r, e1, e2, hr⟩ | ⟨e, e1, e2⟩
  · rw [e1, e2]
    dsimp only
    obtain ⟨u, u', g1, g2, g3, g4⟩ := ChainCall.execL_loc cap cs ⟨t, r, r⟩ ⟨t', r, r⟩ ⟨h1, rfl, rfl, hr⟩
    refine ⟨u.forest, u'.forest, g1.forest, sameOut_ord.trans h2 g2, sameOut_ord.trans h3 g3, ?_⟩
    rcases g4 with ⟨a, e3, e4, _⟩ | ⟨e, e3, e4⟩
    · rw [e3, e4]
      refine .inl ⟨u.rootId, rfl, ?_, trivial⟩
      have := g1.root
      unfold Chain.rootId
      rw [this]
    · rw [e3, e4]; exact .inr ⟨e, rfl, rfl⟩
  · rw [e1, e2]
    exact ⟨t, t', h1, h2, h3, .inr ⟨e, rfl, rfl⟩⟩

end Treena
