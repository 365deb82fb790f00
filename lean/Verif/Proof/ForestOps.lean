import Verif.Proof.DetachSingle
/-! The structural operations of `Forest` on consistent forests. -/
namespace Treena
open Hier Shape

variable {T : Type} {f : Forest T} {s : Shape}

theorem onHier_ok {α : Type} {m : M Hier α} {a : α} {h' : Hier} (h : m f.hier = .ok a h') :
    Forest.onHier m f = .ok a { f with hier := h' } := by
  simp [Forest.onHier, M.zoom, h]

theorem onHier_fail {α : Type} {m : M Hier α} {e : Fail} {h' : Hier} (h : m f.hier = .fail e h') :
    Forest.onHier m f = .fail e { f with hier := h' } := by
  simp [Forest.onHier, M.zoom, h]

theorem Models.agrees (hm : Models f s) : Agrees f.hier s := (repr_iff_agrees hm.valid).1 hm.repr

theorem Models.of_agrees (hv : s.Valid) (ha : Agrees f.hier s) (hl : f.data.length = s.size)
    (hd : ∀ x, (f.getData x).isSome = s.alive x) : Models f s :=
  ⟨hv, (repr_iff_agrees hv).2 ha, hl, hd⟩

/-- Replacing the links of a forest by those of a shape with the same liveness. -/
theorem Models.relink (hm : Models f s) {h' : Hier} {s' : Shape} (hv : s'.Valid)
    (ha : Agrees h' s') (hsz : s'.size = s.size) (hal : s'.alive = s.alive) :
    Models { f with hier := h' } s' :=
  .of_agrees hv ha (by rw [hsz]; exact hm.dataLen) (fun x => by rw [hal]; exact hm.dataAlive x)

theorem Models.lt_of_alive (hm : Models f s) {x : Nat} (hx : s.alive x = true) : x < f.data.length := by
  rw [hm.dataLen]; exact hm.valid.alive_lt x hx

theorem getData_isSome_isAlive (f : Forest T) (x : Nat) : (f.getData x).isSome = f.isAlive x := by
  unfold Forest.getData Forest.isAlive
  cases f.data[x]? <;> simp

theorem Models.isAlive (hm : Models f s) (x : Nat) : f.isAlive x = s.alive x := by
  rw [← getData_isSome_isAlive, hm.dataAlive]

theorem Models.hierAlive (hm : Models f s) (x : Nat) : f.hier.isAlive x = s.alive x := by
  rw [isAlive_eq, hm.agrees.2, hm.valid.entry_isAlive]

theorem Models.dead_ge (hm : Models f s) {x : Nat} (hx : s.size ≤ x) : s.alive x = false := by
  cases e : s.alive x with
  | false => rfl
  | true => exact absurd (hm.valid.alive_lt x e) (by omega)

/-- The shape represented by a forest is unique. -/
theorem Models.link_unique {s' : Shape} (hm : Models f s) (hm' : Models f s') :
    s.size = s'.size ∧ s.alive = s'.alive ∧ s.parent = s'.parent := by
  have h1 : s.alive = s'.alive := by funext x; rw [← hm.isAlive, ← hm'.isAlive]
  refine ⟨by rw [← hm.dataLen, ← hm'.dataLen], h1, ?_⟩
  funext x
  have e1 := hm.agrees.2 x
  have e2 := hm'.agrees.2 x
  cases hx : s.alive x with
  | true =>
    have hx' : s'.alive x = true := by rw [← h1]; exact hx
    rw [entry_alive hx] at e1
    rw [entry_alive hx'] at e2
    rw [e1] at e2
    exact congrArg Neighbors.parent e2
  | false =>
    have hx' : s'.alive x = false := by rw [← h1]; exact hx
    rw [hm.valid.dead_parent hx, hm'.valid.dead_parent hx']

/-! ### Accessors -/

theorem Models.nbr (hm : Models f s) {x : Nat} (hx : s.alive x = true) :
    f.nbr x = .ok (f.hier.get x) := by
  unfold Forest.nbr; rw [neighbors_live ((hm.agrees.live_iff hm.valid x).2 hx)]; rfl

structure DescribesId (f : Forest T) (s : Shape) : Prop where
  alive : ∀ x, f.isAlive x = s.alive x
  data : ∀ x, (f.getData x).isSome = s.alive x
  parent : ∀ x, s.alive x = true → f.parentId x = .ok (s.parent x)
  next : ∀ x, s.alive x = true → f.nextSiblingId x = .ok (s.next x)
  prev : ∀ x, s.alive x = true → f.prevSiblingId x = .ok (s.prev x)
  first : ∀ x, s.alive x = true → f.firstChildId x = .ok (s.kids x).head?
  last : ∀ x, s.alive x = true → f.lastChildId x = .ok (s.kids x).getLast?
  firstLast : ∀ x, s.alive x = true → f.firstLastChildId x =
    .ok ((s.kids x).head?.bind fun a => (s.kids x).getLast?.map fun b => (a, b))

theorem Models.describesId (hm : Models f s) : DescribesId f s where
  alive := hm.isAlive
  data := hm.dataAlive
  parent := fun x hx => by
    have hl := (hm.agrees.live_iff hm.valid x).2 hx
    simp only [Forest.parentId, hm.nbr hx]; rw [getParent_live hl, hm.agrees.get_alive hx]; rfl
  next := fun x hx => by
    have hl := (hm.agrees.live_iff hm.valid x).2 hx
    simp only [Forest.nextSiblingId, hm.nbr hx]; rw [nextSibling_live hl, hm.agrees.get_alive hx]; rfl
  prev := fun x hx => by
    simp only [Forest.prevSiblingId, hm.nbr hx]; exact hm.agrees.prevSibling hm.valid hx
  first := fun x hx => by
    have hl := (hm.agrees.live_iff hm.valid x).2 hx
    simp only [Forest.firstChildId, hm.nbr hx]; rw [firstChild_live hl, hm.agrees.get_alive hx]; rfl
  last := fun x hx => by
    simp only [Forest.lastChildId, hm.nbr hx]; exact hm.agrees.lastChild hm.valid hx
  firstLast := fun x hx => by
    simp only [Forest.firstLastChildId, hm.nbr hx]; exact hm.agrees.firstLastChild hm.valid hx

theorem viaNode_ok {r : R (Option Nat)} {o : Option Nat} (hr : r = .ok o)
    (ho : ∀ y, o = some y → f.isAlive y = true) : f.viaNode r = .ok o := by
  subst hr
  cases o with
  | none => rfl
  | some y => simp [Forest.viaNode, Forest.nodeAt, Forest.node, ho y rfl]

theorem head?_kid (hv : s.Valid) {x y : Nat} (h : (s.kids x).head? = some y) : s.alive y = true :=
  hv.kid_alive (List.mem_of_head? h)
theorem getLast?_kid (hv : s.Valid) {x y : Nat} (h : (s.kids x).getLast? = some y) : s.alive y = true :=
  hv.kid_alive (List.mem_of_getLast? h)

theorem Models.describes (hm : Models f s) : Describes f s where
  alive := hm.describesId.alive
  data := hm.describesId.data
  parent := hm.describesId.parent
  next := hm.describesId.next
  prev := hm.describesId.prev
  first := hm.describesId.first
  last := hm.describesId.last
  firstLast := hm.describesId.firstLast
  node := fun x => by simp only [Forest.node, hm.isAlive]; cases s.alive x <;> rfl
  nodeData := fun x hx => by
    have := hm.dataAlive x
    rw [hx] at this
    obtain ⟨d, hd⟩ := Option.isSome_iff_exists.1 this
    exact ⟨d, by simp [Forest.nodeData, hd], hd⟩
  nodeParent := fun x hx => viaNode_ok (hm.describesId.parent x hx) fun y hy => by
    rw [hm.isAlive]; exact (hm.valid.parent_alive x y hy).2
  nodeNext := fun x hx => viaNode_ok (hm.describesId.next x hx) fun y hy => by
    rw [hm.isAlive]
    refine hm.valid.sibs_alive hx (y := y) ?_
    have := List.mem_of_head? hy
    unfold after at this
    exact List.dropWhile_subset _ (List.mem_of_mem_tail this)
  nodePrev := fun x hx => viaNode_ok (hm.describesId.prev x hx) fun y hy => by
    rw [hm.isAlive]
    refine hm.valid.sibs_alive hx (y := y) ?_
    exact List.takeWhile_subset _ (List.mem_of_getLast? hy)
  nodeFirst := fun x hx => viaNode_ok (hm.describesId.first x hx) fun y hy => by
    rw [hm.isAlive]; exact head?_kid hm.valid hy
  nodeLast := fun x hx => viaNode_ok (hm.describesId.last x hx) fun y hy => by
    rw [hm.isAlive]; exact getLast?_kid hm.valid hy
  nodeFirstLast := fun x hx => by
    unfold Forest.firstLastChild
    rw [hm.describesId.firstLast x hx]
    cases h1 : (s.kids x).head? with
    | none => rfl
    | some a =>
      cases h2 : (s.kids x).getLast? with
      | none => rfl
      | some b =>
        simp [Forest.nodeAt, Forest.node, hm.isAlive, head?_kid hm.valid h1, getLast?_kid hm.valid h2]

/-! ### Creation -/

namespace Shape

theorem Valid.addRoot (hv : s.Valid) : s.addRoot.Valid where
  alive_lt := by
    intro x h
    simp only [Shape.addRoot, upd] at h ⊢
    split at h
    · omega
    · have := hv.alive_lt x h; omega
  parent_alive := by
    intro x p h
    have := hv.parent_alive x p h
    simp only [Shape.addRoot, upd]
    constructor
    · split
      · rfl
      · exact this.1
    · split
      · rfl
      · exact this.2
  mem_kids := hv.mem_kids
  kids_nodup := hv.kids_nodup
  rooted := hv.rooted

theorem Valid.dead_size (hv : s.Valid) : s.alive s.size = false := by
  cases e : s.alive s.size with
  | false => rfl
  | true => exact absurd (hv.alive_lt _ e) (by omega)

theorem addRoot_alive_self (s : Shape) : s.addRoot.alive s.size = true := by
  simp [addRoot, upd]

theorem addRoot_alive_of {x : Nat} (hx : s.alive x = true) : s.addRoot.alive x = true := by
  simp only [addRoot, upd]; split
  · rfl
  · exact hx

end Shape

theorem hier_createRoot_agrees {h : Hier} (ha : Agrees h s) (hv : s.Valid) {cap : Nat}
    (hcap : s.size < cap) :
    ∃ h', Hier.createRoot cap h = .ok s.size h' ∧ Agrees h' s.addRoot := by
  refine ⟨{ nbrs := h.nbrs ++ [Neighbors.newRoot s.size] }, ?_, ?_, ?_⟩
  · unfold Hier.createRoot fromUsize
    rw [ha.1]; simp [hcap]
  · simp [ha.1, Shape.addRoot]
  · intro y
    have hg : Hier.get { nbrs := h.nbrs ++ [Neighbors.newRoot s.size] } y
        = if y = s.size then Neighbors.newRoot s.size else h.get y := by
      unfold Hier.get
      by_cases e : y = s.size
      · rw [if_pos e, ← ha.1] at *
        subst e; simp
      · rw [if_neg e]
        by_cases hy : y < h.nbrs.length
        · simp [List.getElem?_append_left hy]
        · rw [List.getElem?_eq_none (by have := ha.1; simp; omega),
            List.getElem?_eq_none (by omega)]
    rw [hg]
    split
    · rename_i e; subst e
      rw [entry_alive s.addRoot_alive_self, link_root (s := s.addRoot) (hv.dead_parent hv.dead_size)]
      show _ = Neighbors.mk none (some s.size) none (s.kids s.size).head?
      rw [hv.dead_kids hv.dead_size]; rfl
    · rename_i e
      rw [ha.2 y]
      unfold entry
      have : s.addRoot.alive y = s.alive y := by simp [Shape.addRoot, upd, e]
      rw [this]; rfl

theorem hier_createRoot_full {h : Hier} (ha : Agrees h s) {cap : Nat} (hcap : cap ≤ s.size) :
    Hier.createRoot cap h = .fail
      (.panic "[precondition] node ID overflowed presumably due to too many node creations") h := by
  unfold Hier.createRoot fromUsize
  rw [ha.1, if_neg (by omega)]

/-- The forest after pushing a fresh root with its data. -/
theorem Models.pushed (hm : Models f s) {h' : Hier} (ha : Agrees h' s.addRoot) (d : T) :
    Models ({ hier := h', data := f.data ++ [some d] } : Forest T) s.addRoot := by
  refine .of_agrees hm.valid.addRoot ha ?_ ?_
  · simp [hm.dataLen, Shape.addRoot]
  · intro x
    have := hm.dataAlive x
    unfold Forest.getData at this ⊢
    simp only [Shape.addRoot, upd]
    by_cases e : x = s.size
    · subst e; rw [← hm.dataLen]; simp
    · rw [if_neg e, ← this]
      by_cases hx : x < f.data.length
      · simp [List.getElem?_append_left hx]
      · rw [List.getElem?_eq_none (by have := hm.dataLen; simp; omega),
          List.getElem?_eq_none (by omega)]

theorem getData_pushed {h' : Hier} {d : T} (x : Nat) :
    ({ hier := h', data := f.data ++ [some d] } : Forest T).getData x =
      if x = f.data.length then some d else f.getData x := by
  unfold Forest.getData
  by_cases e : x = f.data.length
  · subst e; simp
  · rw [if_neg e]
    by_cases hx : x < f.data.length
    · simp [List.getElem?_append_left hx]
    · rw [List.getElem?_eq_none (by simp; omega), List.getElem?_eq_none (by omega)]

theorem createRoot_models (hm : Models f s) {cap : Nat} (hcap : s.size < cap) (d : T) :
    ∃ f', Forest.createRoot cap d f = .ok s.size f' ∧ Models f' s.addRoot ∧
      ∀ x, f'.getData x = if x = s.size then some d else f.getData x := by
  obtain ⟨h', hr, ha⟩ := hier_createRoot_agrees hm.agrees hm.valid hcap
  refine ⟨{ hier := h', data := f.data ++ [some d] }, ?_, hm.pushed ha d, ?_⟩
  · unfold Forest.createRoot
    simp [onHier_ok hr, M.read, hm.dataLen, Forest.pushData]
  · intro x; rw [getData_pushed, hm.dataLen]

theorem createRoot_full (hm : Models f s) {cap : Nat} (hcap : cap ≤ s.size) (d : T) :
    Forest.createRoot cap d f = .fail
      (.panic "[precondition] node ID overflowed presumably due to too many node creations") f := by
  unfold Forest.createRoot
  simp [onHier_fail (hier_createRoot_full hm.agrees hcap)]

/-! ### Creation at a place -/

theorem ancOrSelf_fresh (hv : s.Valid) {P : Nat} (hP : s.alive P = true) :
    ¬ AncOrSelf s.addRoot.parent s.size P := by
  intro h
  cases h with
  | refl => rw [hv.dead_size] at hP; cases hP
  | step h1 h2 =>
    have h3 : AncOrSelf s.parent s.size P := .step h1 h2
    have := h3.alive hv hP
    rw [hv.dead_size] at this; cases this

theorem not_at_fresh (hv : s.Valid) {pl : Place} (ha : s.alive pl.anchor = true) :
    ¬ s.addRoot.At s.size pl := by
  have hd := hv.dead_size
  intro h
  have key : ∀ p, s.size ∉ s.kids p := fun p hm => by
    have := hv.kid_alive hm; rw [hd] at this; cases this
  have hsib : ∀ a, s.alive a = true → s.size ∉ s.sibs a := fun a haa hm => by
    have := hv.sibs_alive haa hm; rw [hd] at this; cases this
  cases pl with
  | firstChildOf a => exact key a (List.mem_of_mem_head? h)
  | lastChildOf a => exact key a (List.mem_of_getLast? h)
  | before a => exact hsib a ha (before_sub (List.mem_of_getLast? h))
  | after a => exact hsib a ha (after_sub (List.mem_of_mem_head? h))

theorem createInsert_models (hm : Models f s) {cap : Nat} (hcap : s.size < cap) (d : T)
    {dest : InsertAs} {P : Nat} (ha : s.alive dest.place.anchor = true)
    (hpp : s.placeParent dest.place = some P) :
    ∃ f', Forest.createInsert cap d dest f = .ok s.size f' ∧
      Models f' (s.addRoot.move s.size dest.place) ∧
      ∀ x, f'.getData x = if x = s.size then some d else f.getData x := by
  obtain ⟨h', hr, hag⟩ := hier_createRoot_agrees hm.agrees hm.valid hcap
  have hm1 := hm.pushed hag d
  have hP := placeParent_alive hm.valid ha hpp
  have hne : ∀ a, dest.place = .before a ∨ dest.place = .after a → s.size ≠ a := by
    intro a h e
    have : dest.place.anchor = a := by rcases h with h | h <;> rw [h] <;> rfl
    rw [this, ← e, hm.valid.dead_size] at ha; cases ha
  obtain ⟨h2, hins, hag2, hv2⟩ := insert_agrees (h := h') hag hm.valid.addRoot (x := s.size)
    (d := dest) (P := P) s.addRoot_alive_self (addRoot_alive_of ha) hne hpp
    (ancOrSelf_fresh hm.valid hP) (not_at_fresh hm.valid ha)
  have hmove : ∃ l, s.addRoot.move s.size dest.place = ((s.addRoot).detach s.size).attach s.size P l := by
    have hpp' : s.addRoot.placeParent dest.place = some P := hpp
    exact ⟨_, by unfold move; rw [hpp']⟩
  obtain ⟨l, hl⟩ := hmove
  refine ⟨{ hier := h2, data := f.data ++ [some d] }, ?_, ?_, ?_⟩
  · have hval : f.hier.isValid dest.toAnchor = true := by
      have h1 := hm.valid.alive_lt _ ha
      rw [← hm.agrees.1] at h1
      have : dest.toAnchor = dest.place.anchor := by cases dest <;> rfl
      unfold isValid; rw [this]; simpa using h1
    unfold Forest.createInsert Forest.createInsertMomo
    have hon : Forest.onHier (Hier.insert s.size dest)
        ({ hier := h', data := f.data ++ [some d] } : Forest T) =
        .ok (.ok ()) { hier := h2, data := f.data ++ [some d] } := onHier_ok hins
    simp [M.read, hval, onHier_ok hr, Forest.pushData, hon]
  · exact hm1.relink hv2 hag2 (by rw [hl]; rfl) (by rw [hl]; rfl)
  · intro x; rw [getData_pushed, hm.dataLen]

/-! ### Moving, detaching -/

theorem move_alive (s : Shape) (x : Nat) (pl : Place) : (s.move x pl).alive = s.alive := by
  unfold move; split <;> rfl
theorem move_size (s : Shape) (x : Nat) (pl : Place) : (s.move x pl).size = s.size := by
  unfold move; split <;> rfl

theorem forest_insert_models (hm : Models f s) {x P : Nat} {d : InsertAs}
    (hx : s.alive x = true) (hanch : s.alive d.place.anchor = true)
    (hne : ∀ a, d.place = .before a ∨ d.place = .after a → x ≠ a)
    (hpp : s.placeParent d.place = some P) (hcyc : ¬ AncOrSelf s.parent x P)
    (hat : ¬ s.At x d.place) :
    ∃ f', Forest.insert x d f = .ok (.ok ()) f' ∧ Models f' (s.move x d.place) ∧ f'.data = f.data := by
  obtain ⟨h', hr, ha, hv⟩ := insert_agrees hm.agrees hm.valid hx hanch hne hpp hcyc hat
  exact ⟨{ f with hier := h' }, onHier_ok hr, hm.relink hv ha (move_size ..) (move_alive ..), rfl⟩

theorem forest_detach_models (hm : Models f s) {x : Nat} (hx : s.alive x = true) :
    ∃ f', Forest.detach x f = .ok () f' ∧ Models f' (s.detach x) ∧ f'.data = f.data := by
  obtain ⟨h', hr, ha⟩ := detach_agrees hm.agrees hm.valid hx
  exact ⟨{ f with hier := h' }, onHier_ok hr, hm.relink (hm.valid.detach x) ha rfl rfl, rfl⟩

theorem setData_models (hm : Models f s) {x : Nat} (hx : s.alive x = true) (v : T) :
    ∃ f', Forest.setData x v f = .ok true f' ∧ Models f' s ∧ f'.hier = f.hier ∧
      ∀ y, f'.getData y = if y = x then some v else f.getData y := by
  have hlt := hm.lt_of_alive hx
  have hs := hm.dataAlive x
  rw [hx] at hs
  obtain ⟨w, hw⟩ := Option.isSome_iff_exists.1 hs
  have hg : ∀ y, ({ f with data := f.data.set x (some v) } : Forest T).getData y
      = if y = x then some v else f.getData y := by
    intro y
    unfold Forest.getData
    simp only [List.getElem?_set]
    by_cases e : x = y
    · subst e; simp [hlt]
    · have : ¬ y = x := fun e' => e e'.symm
      simp [e, this]
  refine ⟨{ f with data := f.data.set x (some v) }, ?_, ?_, rfl, hg⟩
  · simp [Forest.setData, hw]
  · refine .of_agrees hm.valid hm.agrees (by simp [hm.dataLen]) (fun y => ?_)
    rw [hg y]; split
    · rename_i e; subst e; simp [hx]
    · exact hm.dataAlive y

theorem setData_dead (hm : Models f s) {x : Nat} (hx : s.alive x = false) (v : T) :
    Forest.setData x v f = .ok false f := by
  have hs := hm.dataAlive x
  rw [hx] at hs
  simp at hs
  simp [Forest.setData, hs]

end Treena
