import Verif.Proof.Builders
import Verif.Proof.History
import Verif.Proof.InPlace
import Verif.Props.Insert
import Verif.Props.Remove
import Verif.Spec.Careful
/-! Which calls keep a forest consistent. -/
set_option autoImplicit false

namespace Treena
variable {T : Type} {f : Forest T} {s : Shape} {cap : Nat}

/-- Consistency is handed on. -/
def KeepsC (f f' : Forest T) : Prop := Consistent f → Consistent f'

theorem keepsC_ord : PreOrd (KeepsC (T := T)) := ⟨fun _ h => h, fun h1 h2 h => h2 (h1 h)⟩

theorem createRoot_C (d : T) : Keeps KeepsC (Forest.createRoot cap d) := createRoot_consistent cap d
theorem createInsert_C (d : T) (dest : InsertAs) : Keeps KeepsC (Forest.createInsertMomo cap d dest) :=
  createInsert_consistent cap d dest

theorem chain_exec_C (c : ChainCall T) : Keeps (OnChain KeepsC) (ChainCall.exec cap c) := by
  have hO := OnChain.ord (keepsC_ord (T := T))
  have key : ∀ d dest, Keeps (OnChain KeepsC) (do
      let new ← Chain.onForest (Forest.createInsert cap d dest)
      M.modify fun b => { b with current := new } : M (Chain T) Unit) := by
    intro d dest
    exact Keeps.bind hO (Keeps.zoom (createInsert_C d dest) fun _ _ h => h)
      fun _ => fun b => keepsC_ord.refl b.forest
  cases c with
  | child d => exact fun b => key d _ b
  | sibling d => exact fun b => key d _ b
  | parent =>
    unfold ChainCall.exec Chain.parent
    refine Keeps.bind hO (Keeps.read hO _) fun p => Keeps.bind hO (Keeps.read hO _) fun _ => ?_
    exact fun b => keepsC_ord.refl b.forest
  | tryParent =>
    unfold ChainCall.exec Chain.tryParent
    refine Keeps.bind hO ?_ fun _ => Keeps.pure hO _
    refine Keeps.bind hO (Keeps.read hO _) fun p => ?_
    split
    · exact Keeps.pure hO _
    · exact Keeps.bind hO (fun b => keepsC_ord.refl b.forest) fun _ => Keeps.pure hO _

theorem chain_execL_C : ∀ cs : List (ChainCall T), Keeps (OnChain KeepsC) (ChainCall.execL cap cs)
  | [] => by unfold ChainCall.execL; exact Keeps.pure (OnChain.ord keepsC_ord) _
  | c :: cs => by
    unfold ChainCall.execL
    exact Keeps.bind (OnChain.ord keepsC_ord) (chain_exec_C c) fun _ => chain_execL_C cs

theorem chainBuild_C (d : T) (cs : List (ChainCall T)) : Keeps KeepsC (chainBuild cap d cs) := by
  intro f
  have h1 := createRoot_C (cap := cap) d f
  unfold chainBuild Chain.new
  cases h : Forest.createRoot cap d f with
  | fail e f' => rw [h] at h1; exact h1
  | ok r f' =>
    rw [h] at h1
    simp only []
    have h2 := chain_execL_C (cap := cap) cs { forest := f', root := r, current := r }
    cases h3 : ChainCall.execL cap cs { forest := f', root := r, current := r } <;> rw [h3] at h2 <;>
      exact keepsC_ord.trans h1 h2

theorem nestBuild_C (d : T) (cs : List (NestCall T)) : Keeps KeepsC (nestBuild cap d cs) := by
  rintro f ⟨s, hm⟩
  rcases nestBuild_spec hm cap d cs with ⟨_, h⟩ | ⟨_, g, s', hp, h⟩
  · rw [h]; exact ⟨s, hm⟩
  · rw [h]
    split <;> exact ⟨_, hp.grown.models⟩

theorem nbr_dead (hm : Models f s) {a : Nat} (ha : s.alive a = false) : ∃ e, f.nbr a = .error e := by
  have h := hm.hierAlive a
  rw [ha] at h
  unfold Forest.nbr Hier.neighbors
  unfold Hier.isAlive at h
  cases hg : f.hier.nbrs[a]? with
  | none => exact ⟨_, rfl⟩
  | some nb =>
    rw [hg] at h
    simp only [Option.filter, h]
    exact ⟨_, rfl⟩

/-- Reading `At` off the accessors. -/
theorem inPlace_iff (hm : Models f s) {x : Nat} {d : InsertAs} : InPlace f x d ↔
    s.At x d.place ∧ ¬ ∃ P, d = .firstChildOf P ∧ s.kids P = [x] := by
  have hD := hm.describes
  have hv := hm.valid
  have hkd : ∀ a, s.alive a = false → s.kids a = [] := by
    intro a ha
    cases hk : s.kids a with
    | nil => rfl
    | cons y l =>
      have := (hv.parent_alive y a ((hv.mem_kids y a).1 (by rw [hk]; simp))).2
      rw [ha] at this; cases this
  have hpd : ∀ a, s.alive a = false → s.parent a = none := by
    intro a ha
    cases hp : s.parent a with
    | none => rfl
    | some p => have := (hv.parent_alive a p hp).1; rw [ha] at this; cases this
  cases d with
  | firstChildOf a =>
    cases ha : s.alive a with
    | false =>
      obtain ⟨e, he⟩ := nbr_dead hm ha
      simp [InPlace, InsertAs.place, Shape.At, Shape.first, hkd a ha, Forest.firstChildId, he]
    | true =>
      simp only [InPlace, InsertAs.place, Shape.At, Shape.first, hD.first a ha, hD.last a ha, Except.ok.injEq,
        InsertAs.firstChildOf.injEq, exists_eq_left', ne_eq]
      refine and_congr_right fun h1 => not_congr ?_
      have hnd := hv.kids_nodup a
      cases hk : s.kids a with
      | nil => rw [hk] at h1; cases h1
      | cons y l =>
        rw [hk] at h1 hnd
        simp only [List.head?_cons, Option.some.injEq] at h1
        subst h1
        rcases snoc_cases l with e | ⟨l', z, e⟩
        · subst e; simp
        · subst e
          have hz : y ≠ z := fun e => by subst e; simp at hnd
          rw [← List.cons_append, List.getLast?_concat]
          constructor
          · intro h; exact absurd (Option.some.inj h).symm hz
          · intro h; simp at h
  | lastChildOf a =>
    cases ha : s.alive a with
    | false =>
      obtain ⟨e, he⟩ := nbr_dead hm ha
      simp [InPlace, InsertAs.place, Shape.At, Shape.last, hkd a ha, Forest.lastChildId, he]
    | true => simp [InPlace, InsertAs.place, Shape.At, Shape.last, hD.last a ha]
  | previousSiblingOf a =>
    cases ha : s.alive a with
    | false =>
      obtain ⟨e, he⟩ := nbr_dead hm ha
      simp [InPlace, InsertAs.place, Shape.At, Shape.prev, Shape.sibs, hpd a ha, before, Forest.prevSiblingId, he]
    | true => simp [InPlace, InsertAs.place, Shape.At, hD.prev a ha]
  | nextSiblingOf a =>
    cases ha : s.alive a with
    | false =>
      obtain ⟨e, he⟩ := nbr_dead hm ha
      simp [InPlace, InsertAs.place, Shape.At, Shape.next, Shape.sibs, hpd a ha, after, Forest.nextSiblingId, he]
    | true => simp [InPlace, InsertAs.place, Shape.At, hD.next a ha]

theorem insert_careful (hm : Models f s) {x : Nat} {d : InsertAs} (h : ¬ InPlace f x d) :
    Consistent (Forest.insert x d f).state := by
  by_cases hat : s.At x d.place
  · have : ∃ P, d = .firstChildOf P ∧ s.kids P = [x] := by
      by_cases hno : ∃ P, d = .firstChildOf P ∧ s.kids P = [x]
      · exact hno
      · exact absurd ((inPlace_iff hm).2 ⟨hat, hno⟩) h
    obtain ⟨P, rfl, hk⟩ := this
    rw [C08_insert_only_child_first_partial hm hk]
    exact ⟨s, hm⟩
  · exact insert_consistent hm hat

theorem insert_harmful (hm : Models f s) {x : Nat} {d : InsertAs} (h : InPlace f x d) :
    Undescribable (Forest.insert x d f).state :=
  (C08_insert_in_place_corrupts hm ((inPlace_iff hm).1 h).1 ((inPlace_iff hm).1 h).2).1

/-- What an `Ok` says about the arguments. -/
theorem insert_ok_inv (hm : Models f s) {x : Nat} {d : InsertAs} {f1 : Forest T}
    (h : Forest.insert x d f = .ok (.ok ()) f1) :
    s.alive x = true ∧ s.alive d.place.anchor = true ∧ (d ≠ .previousSiblingOf x ∧ d ≠ .nextSiblingOf x) ∧
    ∃ P, s.placeParent d.place = some P ∧ ¬ AncOrSelf s.parent x P := by
  by_cases hne : d ≠ .previousSiblingOf x ∧ d ≠ .nextSiblingOf x
  · by_cases hx : s.alive x = true ∧ s.alive d.place.anchor = true
    · cases hpp : s.placeParent d.place with
      | none => rw [forest_insert_rootSibling hm hx.1 hx.2 hne hpp] at h; cases h
      | some P =>
        by_cases hcyc : AncOrSelf s.parent x P
        · rw [forest_insert_loop hm hx.1 hx.2 hne hpp hcyc] at h; cases h
        · exact ⟨hx.1, hx.2, hne, P, rfl, hcyc⟩
    · have hd : s.alive x = false ∨ s.alive d.place.anchor = false := by
        cases h1 : s.alive x
        · exact .inl rfl
        · cases h2 : s.alive d.place.anchor
          · exact .inr rfl
          · exact absurd ⟨h1, h2⟩ hx
      obtain ⟨m, h'⟩ := forest_insert_dead hm hd hne
      rw [h'] at h; cases h
  · have hd : d = .previousSiblingOf x ∨ d = .nextSiblingOf x := by
      by_cases h1 : d = .previousSiblingOf x
      · exact .inl h1
      · by_cases h2 : d = .nextSiblingOf x
        · exact .inr h2
        · exact absurd ⟨h1, h2⟩ hne
    rw [forest_insert_unorderable f hd] at h; cases h

theorem linksToDead_undescribable (h : LinksToDead f) : Undescribable f := by
  obtain ⟨p, c, hp, hc, hd⟩ := h
  intro s hv hD
  rw [hD.alive] at hp hd
  rw [hD.first p hp] at hc
  have := (hv.parent_alive c p ((hv.mem_kids c p).1 (List.mem_of_head? (Except.ok.inj hc)))).1
  rw [hd] at this; cases this

/-- `remove_hooked`, any hook. -/
theorem removeHooked_cases {S : Type} (hm : Models f s) (x : Nat) (hook : Forest.Hook S T) (c : S) :
    (Consistent (Forest.removeHooked hook x (f, c)).state.1 ∧ ¬ (Op.removeHooked S hook c x).Harmful f) ∨
    (Undescribable (Forest.removeHooked hook x (f, c)).state.1 ∧ (Op.removeHooked S hook c x).Harmful f) := by
  cases hx : s.alive x with
  | false =>
    left
    have h : Forest.removeHooked hook x (f, c) = .ok () (f, c) := by
      rw [Forest.removeHooked, removeWith_dead _ hm hx]
    rw [h]
    refine ⟨⟨s, hm⟩, ?_⟩
    rintro ⟨e, f', c', h', _⟩
    rw [h] at h'; cases h'
  | true =>
    obtain ⟨t, ht, rfl⟩ := Tree.exists_tree hm.valid hx
    have hds := data_list hm t.postorder fun y hy => Tree.mem_alive hm.valid ht hx (Tree.mem_postorder.1 hy)
    obtain ⟨f', h⟩ := removeHooked_spec hook hm ht hx c
    have hlen : t.postorder.length = t.count := by
      rw [(Tree.postorder_perm t).length_eq, Tree.length_preorder]
    cases hf : feed hook c (t.postorder.filterMap f.getData) with
    | mk σ' o =>
      rw [hf] at h
      cases o with
      | none =>
        left
        rw [h.1]
        refine ⟨⟨_, h.2.1⟩, ?_⟩
        rintro ⟨e, f'', c', h', _⟩
        rw [h.1] at h'; cases h'
      | some k =>
        obtain ⟨h1, ⟨f0, hm0, hd0, hR⟩, h2⟩ := h
        have hroot : t.root ∈ t.postorder := Tree.mem_postorder.2 (by cases t; simp [Tree.preorder, Tree.root])
        by_cases hk : k + 1 < t.count
        · right
          obtain ⟨f'', h3, h4, _⟩ := C40_remove_hooked_panic_corrupts hm ht hx hook c σ' k hds hf hk
          rw [h1] at h3; cases h3
          rw [h1]
          refine ⟨linksToDead_undescribable h4, _, f', σ', h1, ?_⟩
          have hni : t.root ∉ t.postorder.take (k + 1) := by
            have hnd : t.postorder.Nodup := (Tree.postorder_perm t).nodup_iff.2 (Tree.preorder_nodup hm.valid t ht)
            have hlast : ∃ l, t.postorder = l ++ [t.root] := by
              cases t with
              | node a ts => exact ⟨_, rfl⟩
            obtain ⟨l, hl⟩ := hlast
            rw [hl] at hnd ⊢
            rw [List.take_append_of_le_length (by rw [hl] at hlen; simp at hlen; omega)]
            intro hmem
            exact (List.nodup_append.1 hnd).2.2 _ (List.mem_of_mem_take hmem) _ (by simp) rfl
          rw [← getData_isSome_isAlive, h2, if_neg hni, hm.dataAlive]; exact hx
        · left
          have htk : t.postorder.take (k + 1) = t.postorder := List.take_of_length_le (by omega)
          rw [htk] at hR h2
          have hmod := hR.models hm0 (Tree.isTree_detach hm.valid ht) (by simp [Shape.detach, Shape.upd])
          rw [h1]
          refine ⟨⟨_, hmod⟩, ?_⟩
          rintro ⟨e, f'', c', h', ha⟩
          rw [h1] at h'; cases h'
          rw [← getData_isSome_isAlive, h2, if_pos hroot] at ha; cases ha

theorem adopt_state (self x : Nat) (dest : AdoptAs) (f : Forest T) :
    (NodeMut.adopt self x dest f).state = (Forest.insert x (adoptPlace self dest) f).state := by
  have he : dest.insertWithAnchor self = adoptPlace self dest := by cases dest <;> rfl
  have hr : NodeMut.tryAdopt self x dest f = Forest.insert x (adoptPlace self dest) f := by
    unfold NodeMut.tryAdopt; rw [he]; rfl
  simp only [NodeMut.adopt, M.run_bind, hr]
  cases Forest.insert x (adoptPlace self dest) f with
  | fail e f' => rfl
  | ok r f' => cases r <;> rfl

/-- One call on a consistent forest: afterwards the forest is consistent, or the call was harmful and the
forest is destroyed. -/
theorem step_cases (hm : Models f s) (op : Op T) :
    (Consistent (Op.step cap f op) ∧ ¬ op.Harmful f) ∨ (Undescribable (Op.step cap f op) ∧ op.Harmful f) := by
  have hc : Consistent f := ⟨s, hm⟩
  have hins : ∀ x d, (Consistent (Forest.insert x d f).state ∧ ¬ InPlace f x d) ∨
      (Undescribable (Forest.insert x d f).state ∧ InPlace f x d) := by
    intro x d
    by_cases h : InPlace f x d
    · exact .inr ⟨insert_harmful hm h, h⟩
    · exact .inl ⟨insert_careful hm h, h⟩
  have hadopt : ∀ self x (dest : AdoptAs), f.isAlive self = false → ¬ InPlace f x (adoptPlace self dest) := by
    intro self x dest hd
    rw [hm.isAlive] at hd
    obtain ⟨e, he⟩ := nbr_dead hm hd
    cases dest <;> simp [adoptPlace, InPlace, Forest.firstChildId, Forest.lastChildId, Forest.prevSiblingId,
      Forest.nextSiblingId, he]
  cases op with
  | createRoot d => exact .inl ⟨createRoot_consistent cap d f hc, id⟩
  | createInsert d dest => exact .inl ⟨createInsert_consistent cap d dest f hc, id⟩
  | setData i v => exact .inl ⟨setData_consistent i v f hc, id⟩
  | insert x d => exact hins x d
  | detach x => exact .inl ⟨detach_consistent x f hc, id⟩
  | detachSingle x => exact .inl ⟨detachSingle_consistent x f hc, id⟩
  | remove x => exact .inl ⟨remove_consistent x f hc, id⟩
  | removeHooked S hook c x => exact removeHooked_cases hm x hook c
  | removeHookedPanicSafe S hook c x => exact .inl ⟨removeHookedPanicSafe_consistent hook c x f hc, id⟩
  | cloneLocal S cl hook c x =>
    exact .inl ⟨cloneLocal_keeps keepsC_ord createRoot_C createInsert_C cl hook x (f, c) hc, id⟩
  | cloneForeign S cl hook c fsrc x =>
    exact .inl ⟨cloneForeign_keeps keepsC_ord createRoot_C createInsert_C cl hook fsrc x (f, c) hc, id⟩
  | nodeCreate self d dest =>
    refine .inl ⟨?_, id⟩
    simp only [Op.step]
    split
    · exact createInsert_consistent cap d _ f hc
    · exact hc
  | tryAdopt self x dest =>
    have hr : NodeMut.tryAdopt self x dest f = Forest.insert x (adoptPlace self dest) f := by
      have he : dest.insertWithAnchor self = adoptPlace self dest := by cases dest <;> rfl
      unfold NodeMut.tryAdopt; rw [he]; rfl
    simp only [Op.step, Op.Harmful, hr]
    split
    · exact hins _ _
    · rename_i h; exact .inl ⟨hc, hadopt _ _ _ (by simpa using h)⟩
  | adopt self x dest =>
    simp only [Op.step, Op.Harmful, adopt_state]
    split
    · exact hins _ _
    · rename_i h; exact .inl ⟨hc, hadopt _ _ _ (by simpa using h)⟩
  | nest d calls => exact .inl ⟨nestBuild_C d calls f hc, id⟩
  | chain d calls => exact .inl ⟨chainBuild_C d calls f hc, id⟩

theorem run_careful : ∀ (ops : List (Op T)) (f : Forest T), Consistent f → Careful cap f ops →
    Consistent (Op.run cap f ops)
  | [], _, h, _ => h
  | op :: ops, f, ⟨s, hm⟩, hc => by
    have h1 : Consistent (Op.step cap f op) := by
      rcases step_cases (cap := cap) hm op with h | h
      · exact h.1
      · exact absurd h.2 hc.1
    exact run_careful ops _ h1 hc.2

end Treena
