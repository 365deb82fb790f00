import Verif.Proof.Laws
import Verif.Props.Clone
import Verif.Props.Create
import Verif.Props.Detach
import Verif.Props.SampleRun
/-!
# Laws relating several calls (C43 – C48)

Forest values are compared with `=`: same links and same data for every ID ever issued. -/
set_option autoImplicit false

namespace Treena
open Shape
variable {T S : Type} {f : Forest T} {s : Shape}

/-! ### C43: undoing a detach -/

/-- **C43**.  Whatever description `dest` of the place of `x` is used (first / last child of its parent, before its
next sibling, after its previous one): `detach(x)` followed by `insert(x, dest)` gives back the very same
forest. -/
theorem C43_detach_reinsert (hm : Models f s) {x : Nat} {d : InsertAs} (hat : s.At x d.place) :
    ∃ f1, Forest.detach x f = .ok () f1 ∧ Forest.insert x d f1 = .ok (.ok ()) f := by
  have hv := hm.valid
  obtain ⟨P, A, B, hpp, hk, hc⟩ := hv.at_split hat
  have hpx : s.parent x = some P := hv.kid_parent (by rw [hk]; simp)
  obtain ⟨hx, hP⟩ := hv.parent_alive _ _ hpx
  have hself : NotSelf x d.place := by
    have hnd := hv.kids_nodup P
    rw [hk] at hnd
    cases d with
    | firstChildOf a => rintro b (e | e) <;> cases e
    | lastChildOf a => rintro b (e | e) <;> cases e
    | previousSiblingOf a =>
      obtain ⟨B', rfl⟩ := hc
      rintro b (e | e) rfl <;> cases e
      simp [List.nodup_append] at hnd
    | nextSiblingOf a =>
      obtain ⟨A', rfl⟩ := hc
      rintro b (e | e) rfl <;> cases e
      simp [List.nodup_append] at hnd
  have hanch : s.alive d.place.anchor = true := by
    have hmem : ∀ y, y ∈ s.kids P → s.alive y = true := fun y hy => hv.kid_alive hy
    cases d with
    | firstChildOf a => obtain ⟨rfl, _⟩ := hc; exact hP
    | lastChildOf a => obtain ⟨rfl, _⟩ := hc; exact hP
    | previousSiblingOf a => obtain ⟨B', rfl⟩ := hc; exact hmem a (by rw [hk]; simp)
    | nextSiblingOf a => obtain ⟨A', rfl⟩ := hc; exact hmem a (by rw [hk]; simp)
  obtain ⟨f1, h1, h2, h3⟩ := forest_detach_models hm hx
  have hpar : ∀ y, y ≠ x → (s.detach x).parent y = s.parent y := fun y hy => by simp [Shape.detach, upd, hy]
  have hpp1 : (s.detach x).placeParent d.place = some P := by rw [placeParent_of_parent hself hpar, hpp]
  have hcyc : ¬ AncOrSelf (s.detach x).parent x P := fun h =>
    (hv.rooted x).acyclic hpx (move_keeps_outside hpar h)
  have hnat : ¬ (s.detach x).At x d.place := by
    intro h
    obtain ⟨P', A', B', _, hk', _⟩ := h2.valid.at_split h
    have := h2.valid.kid_parent (x := x) (p := P') (by rw [hk']; simp)
    simp [Shape.detach, upd] at this
  obtain ⟨f2, h4, h5, h6⟩ := forest_insert_models h2 (x := x) (d := d) hx hanch hself hpp1 hcyc hnat
  have he : (s.detach x).move x d.place = s := by
    rw [move_of_detach hpp hpp1 (detach_detach s x hv), hv.move_at hat]
  rw [he] at h5
  have : f2 = f := forest_ext h5 hm (fun y => by unfold Forest.getData; rw [h6, h3])
  exact ⟨f1, h1, by rw [h4, this]⟩

/-- The four descriptions of the place of `2` in the sample all restore it. -/
example : ∀ d ∈ [InsertAs.nextSiblingOf 1, .previousSiblingOf 3], ∃ f1,
    Forest.detach 2 Sample.built = .ok () f1 ∧ Forest.insert 2 d f1 = .ok (.ok ()) Sample.built := by
  intro d hd
  refine C43_detach_reinsert Sample.models ?_
  simp only [List.mem_cons, List.not_mem_nil, or_false] at hd
  rcases hd with rfl | rfl <;>
  simp [InsertAs.place, Shape.At, Shape.prev, Shape.next, Shape.sibs, Sample.shape, Sample.parent, Sample.kids,
    before, after]

/-! ### C44: detaches commute -/

/-- **C44**.  Detaching two live nodes gives the same forest in either order. -/
theorem C44_detaches_commute (hm : Models f s) {x y : Nat} (hx : s.alive x = true) (hy : s.alive y = true) :
    ∃ fx fy g, Forest.detach x f = .ok () fx ∧ Forest.detach y f = .ok () fy ∧
      Forest.detach y fx = .ok () g ∧ Forest.detach x fy = .ok () g := by
  obtain ⟨fx, h1, h2, h3⟩ := forest_detach_models hm hx
  obtain ⟨fy, h4, h5, h6⟩ := forest_detach_models hm hy
  obtain ⟨g, h7, h8, h9⟩ := forest_detach_models h2 (x := y) hy
  obtain ⟨g', h10, h11, h12⟩ := forest_detach_models h5 (x := x) hx
  rw [detach_comm] at h11
  have : g' = g := forest_ext h11 h8 (fun z => by unfold Forest.getData; rw [h9, h12, h3, h6])
  exact ⟨fx, fy, g, h1, h4, h7, by rw [h10, this]⟩

example : ∃ fx fy g, Forest.detach 2 Sample.built = .ok () fx ∧ Forest.detach 4 Sample.built = .ok () fy ∧
    Forest.detach 4 fx = .ok () g ∧ Forest.detach 2 fy = .ok () g :=
  C44_detaches_commute Sample.models rfl rfl

/-! ### C45: the last insert wins -/

/-- **C45**.  After a successful `insert(x, d1)`, an `insert(x, d2)` succeeds exactly if it would have succeeded
without the first one, and gives the very same forest.  (No request may be for the place where `x` already is:
those destroy the forest, see C08.) -/
theorem C45_last_insert_wins (hm : Models f s) {x : Nat} {d1 d2 : InsertAs} {f1 f2 : Forest T}
    (h1 : Forest.insert x d1 f = .ok (.ok ()) f1) (n1 : ¬ InPlace f x d1) (n2 : ¬ InPlace f x d2)
    (n3 : ¬ InPlace f1 x d2) :
    Forest.insert x d2 f1 = .ok (.ok ()) f2 ↔ Forest.insert x d2 f = .ok (.ok ()) f2 := by
  have hv := hm.valid
  obtain ⟨hm1, hd1, hx, _, hne1, P1, hpp1, hc1⟩ := insert_char hm n1 h1
  have hdet := detach_move hv hpp1 (place_ne hne1) hm1.valid
  have hpar : ∀ y, y ≠ x → (s.move x d1.place).parent y = s.parent y := fun y hy => by
    have h : (((s.move x d1.place).detach x).parent) y = ((s.detach x).parent) y := by rw [hdet]
    simpa [Shape.detach, upd, hy] using h
  have hpar' : ∀ y, y ≠ x → s.parent y = (s.move x d1.place).parent y := fun y hy => (hpar y hy).symm
  have hal : (s.move x d1.place).alive = s.alive := move_alive s x _
  constructor
  · intro h
    obtain ⟨hm2, hd2, _, ha2, hne2, P2, hpp2, hc2⟩ := insert_char hm1 n3 h
    have hpp2' : s.placeParent d2.place = some P2 := by
      rw [placeParent_of_parent (place_ne hne2) hpar'] ; exact hpp2
    obtain ⟨f2', h'⟩ := insert_succeeds hm n2 hx (by rw [← hal]; exact ha2) hne2 hpp2'
      (fun hc => hc2 (move_keeps_outside hpar' hc))
    obtain ⟨hm2', hd2', _⟩ := insert_char hm n2 h'
    rw [move_of_detach hpp2' hpp2 hdet] at hm2
    have : f2' = f2 := forest_ext hm2' hm2 (fun y => by unfold Forest.getData; rw [hd2, hd2', hd1])
    rw [h', this]
  · intro h
    obtain ⟨hm2, hd2, _, ha2, hne2, P2, hpp2, hc2⟩ := insert_char hm n2 h
    have hpp2' : (s.move x d1.place).placeParent d2.place = some P2 := by
      rw [placeParent_of_parent (place_ne hne2) hpar] ; exact hpp2
    obtain ⟨f2', h'⟩ := insert_succeeds hm1 n3 (by rw [hal]; exact hx) (by rw [hal]; exact ha2) hne2 hpp2'
      (fun hc => hc2 (move_keeps_outside hpar hc))
    obtain ⟨hm2', hd2', _⟩ := insert_char hm1 n3 h'
    rw [move_of_detach hpp2 hpp2' hdet] at hm2'
    have : f2' = f2 := forest_ext hm2' hm2 (fun y => by unfold Forest.getData; rw [hd2, hd2', hd1])
    rw [h', this]

/-- C45, back to the start: moving `x` elsewhere and then back to (a description of) its old place gives back the
very same forest. -/
theorem C45_move_back (hm : Models f s) {x : Nat} {d1 d2 : InsertAs} {f1 : Forest T}
    (hat : s.At x d2.place) (n1 : ¬ s.At x d1.place)
    (h1 : Forest.insert x d1 f = .ok (.ok ()) f1) : Forest.insert x d2 f1 = .ok (.ok ()) f := by
  have hv := hm.valid
  have n1' : ¬ InPlace f x d1 := fun h => n1 ((inPlace_iff hm).1 h).1
  obtain ⟨hm1, hd1, hx, _, hne1, P1, hpp1, hc1⟩ := insert_char hm n1' h1
  obtain ⟨_, _, hat1⟩ := hv.move_facts hpp1 (place_ne hne1) n1 hm1.valid
  obtain ⟨f0, g1, g2⟩ := C43_detach_reinsert hm hat
  have g3 : Forest.detach x f1 = .ok () f0 := by
    obtain ⟨a, b, c1, c2, c3⟩ := insert_then_detach hm hx (insert_ok_inv hm h1).2.1 hne1 hpp1 hc1 n1
    rw [h1] at c1; cases c1
    rw [g1] at c3; cases c3
    exact c2
  -- the old place is not where `x` is now
  have hdet := detach_move hv hpp1 (place_ne hne1) hm1.valid
  have hpar : ∀ y, y ≠ x → (s.move x d1.place).parent y = s.parent y := fun y hy => by
    have h : (((s.move x d1.place).detach x).parent) y = ((s.detach x).parent) y := by rw [hdet]
    simpa [Shape.detach, upd, hy] using h
  obtain ⟨f0', q1, q2, q3⟩ := forest_detach_models hm hx
  rw [g1] at q1; cases q1
  obtain ⟨e1, e2, e3, P2, e4, e5⟩ := insert_ok_inv q2 g2
  have hpar0 : ∀ y, y ≠ x → s.parent y = (s.detach x).parent y := fun y hy => by simp [Shape.detach, upd, hy]
  have hpp2 : s.placeParent d2.place = some P2 := by
    rw [placeParent_of_parent (place_ne e3) hpar0]; exact e4
  have hpp2' : (s.move x d1.place).placeParent d2.place = some P2 := by
    rw [placeParent_of_parent (place_ne e3) hpar]; exact hpp2
  have hback : (s.move x d1.place).move x d2.place = s := by
    rw [move_of_detach hpp2 hpp2' hdet, hv.move_at hat]
  have hnat : ¬ (s.move x d1.place).At x d2.place := by
    intro h
    rw [hm1.valid.move_at h] at hback
    rw [hback] at hat1
    exact n1 hat1
  have hal : (s.move x d1.place).alive = s.alive := move_alive s x _
  obtain ⟨f2, i1, i2, i3⟩ := forest_insert_models hm1 (x := x) (d := d2) (by rw [hal]; exact hx)
    (by rw [hal]; exact e2) (place_ne e3) hpp2' (fun h => e5 (by
      refine move_keeps_outside (fun y hy => ?_) h
      rw [hpar y hy, hpar0 y hy])) hnat
  rw [hback] at i2
  have : f2 = f := forest_ext i2 hm (fun y => by unfold Forest.getData; rw [i3, hd1])
  rw [i1, this]

/-- Moving `2` below `6` and back between `1` and `3`. -/
example : ∃ f1, Forest.insert 2 (.lastChildOf 6) Sample.built = .ok (.ok ()) f1 ∧
    Forest.insert 2 (.nextSiblingOf 1) f1 = .ok (.ok ()) Sample.built := by
  have hn : ¬ Sample.shape.At 2 (InsertAs.lastChildOf 6).place := by
    simp [InsertAs.place, Shape.At, Shape.last, Sample.shape, Sample.kids]
  obtain ⟨f1, _, h, _⟩ := C07_insert_moves_partial Sample.models (x := 2) (P := 6) (d := .lastChildOf 6)
    rfl rfl (by simp) rfl (by intro h; cases h with | step h _ => simp [Sample.shape, Sample.parent] at h) hn
  refine ⟨f1, h, C45_move_back Sample.models ?_ hn h⟩
  simp [InsertAs.place, Shape.At, Shape.next, Shape.sibs, Sample.shape, Sample.parent, Sample.kids, after]

/-! ### C46: moving before removing makes no difference -/

/-- **C46**.  If `detach(x)`, or a successful `insert(x, d)` (not in place), is followed by a removal of `x`, then
forest, captured state of the hook and panics are exactly those of the removal alone — for every hook, panicking or
not. -/
theorem C46_move_then_remove (hm : Models f s) {x : Nat} {f1 : Forest T}
    (h : Forest.detach x f = .ok () f1 ∧ s.alive x = true ∨
      ∃ d, ¬ InPlace f x d ∧ Forest.insert x d f = .ok (.ok ()) f1) :
    Forest.remove x f1 = Forest.remove x f ∧
    ∀ (S : Type) (hook : Forest.Hook S T) (σ : S),
      Forest.removeHooked hook x (f1, σ) = Forest.removeHooked hook x (f, σ) ∧
      Forest.removeHookedPanicSafe hook x (f1, σ) = Forest.removeHookedPanicSafe hook x (f, σ) := by
  have key : ∀ (S : Type) (close : Nat → M (Forest T × S) Unit) (σ : S),
      Forest.removeWith close x (f1, σ) = Forest.removeWith close x (f, σ) := by
    intro S close σ
    rcases h with ⟨h, hx⟩ | ⟨d, hn, h⟩
    · obtain ⟨f1', h1, h2, h3⟩ := forest_detach_models hm hx
      rw [h] at h1; cases h1
      exact removeWith_congr close hm h2 hx hx (detach_detach s x hm.valid) h3 σ
    · obtain ⟨hm1, hd1, hx, _, hne1, P1, hpp1, hc1⟩ := insert_char hm hn h
      exact removeWith_congr close hm hm1 hx (by rw [move_alive]; exact hx)
        (detach_move hm.valid hpp1 (place_ne hne1) hm1.valid) hd1 σ
  refine ⟨?_, fun S hook σ => ⟨key S _ σ, key S _ σ⟩⟩
  unfold Forest.remove Forest.removeHooked
  rw [key]

example : ∃ f1, Forest.detach 2 Sample.built = .ok () f1 ∧
    Forest.remove 2 f1 = Forest.remove 2 Sample.built := by
  obtain ⟨f1, _, h, _⟩ := C13_detach Sample.models (x := 2) rfl
  exact ⟨f1, h, (C46_move_then_remove Sample.models (.inl ⟨h, rfl⟩)).1⟩

/-! ### C47: removals commute -/

/-- **C47**.  For any two IDs, live or dead: removing one and then the other gives the same forest in either
order; if one is an ancestor of the other (or the same), this is the forest given by removing the ancestor only. -/
theorem C47_removals_commute (hm : Models f s) (x y : Nat) :
    (∃ fx fy g, Forest.remove x f = .ok () fx ∧ Forest.remove y f = .ok () fy ∧
      Forest.remove y fx = .ok () g ∧ Forest.remove x fy = .ok () g) ∧
    (AncOrSelf s.parent x y → ∃ fx fy, Forest.remove x f = .ok () fx ∧ Forest.remove y f = .ok () fy ∧
      Forest.remove x fy = .ok () fx ∧ Forest.remove y fx = .ok () fx) := by
  obtain ⟨fx, g, h1, h2, h3, h4⟩ := remove_remove hm x y
  obtain ⟨fy, g', h5, h6, h7, h8⟩ := remove_remove hm y x
  have hcomm : (fun z => below s y z || below s x z) = fun z => below s x z || below s y z := by
    funext z; exact Bool.or_comm ..
  rw [hcomm] at h7
  have e : g' = g := forest_ext h7 h3 (fun z => by rw [h4, h8, Bool.or_comm])
  refine ⟨⟨fx, fy, g, h1, h5, h2, by rw [h6, e]⟩, fun hxy => ?_⟩
  obtain ⟨fx', i1, i2, i3⟩ := remove_char hm x
  rw [h1] at i1; cases i1
  have hsub : ∀ z, (below s x z || below s y z) = below s x z := by
    intro z
    rw [Bool.eq_iff_iff]
    simp only [Bool.or_eq_true, below_iff]
    exact ⟨fun h => h.elim id fun h => hxy.trans h, .inl⟩
  have hfun : (fun z => below s x z || below s y z) = below s x := funext hsub
  rw [hfun] at h3
  have e2 : g = fx := forest_ext h3 i2 (fun z => by rw [h4, i3, hsub])
  exact ⟨fx, fy, h1, h5, by rw [h6, e, e2], by rw [h2, e2]⟩

example : ∃ f2 f4, Forest.remove 2 Sample.built = .ok () f2 ∧ Forest.remove 4 Sample.built = .ok () f4 ∧
    Forest.remove 2 f4 = .ok () f2 ∧ Forest.remove 4 f2 = .ok () f2 :=
  (C47_removals_commute Sample.models 2 4).2 (.step (p := 2) rfl .refl)

/-! ### C48: removing what was added -/

/-- The forest `g` has all nodes of `f` unchanged, and otherwise only dead IDs. -/
structure OnlyDeadAdded (f : Forest T) (s : Shape) (g : Forest T) (s' : Shape) : Prop where
  grown : Grown f s g s'
  describes : Describes g s'
  dead : ∀ y, s.size ≤ y → s'.alive y = false

/-- **C48**, clones: `clone_local_tree(x)` (or `clone_foreign_tree`) followed by removal of the copy leaves all old
nodes as they were; the IDs of the copy are dead. -/
theorem C48_clone_then_remove (hm : Models f s) {cl : T → Option T} {dat : Nat → Option T} {t : Tree Nat}
    {g : Forest T} {s' : Shape} (h : Copied f s cl dat t g s') :
    ∃ g' s'', Forest.remove s.size g = .ok () g' ∧ OnlyDeadAdded f s g' s'' ∧ s''.size = s.size + t.count := by
  have hg := h.grown
  have hv := hg.models.valid
  obtain ⟨g', h1, h2, h3⟩ := remove_char hg.models s.size
  have hpre := Tree.mem_preorder_iff hv h.tree
  have hB : ∀ y, below s' s.size y = true ↔ s.size ≤ y ∧ y < s.size + t.count := by
    intro y
    have := hpre y
    rw [Tree.preorder_number, List.mem_range'_1, Tree.root_number] at this
    rw [below_iff, ← this]
  have hlt : ∀ y, y < s.size → below s' s.size y = false := by
    intro y hy
    cases e : below s' s.size y with
    | false => rfl
    | true => have := ((hB y).1 e).1; omega
  refine ⟨g', _, h1, OnlyDeadAdded.mk (Grown.mk h2 hg.size (fun y hy => ?_) (fun y hy => ?_) (fun y hy => ?_)
    (fun y hy => ?_)) h2.describes (fun y hy => ?_), h.size⟩
  · simp [Shape.kill, hlt y hy, hg.alive y hy]
  · simp [Shape.kill, hlt y hy, hg.parent y hy]
  · simp only [Shape.kill, hlt y hy, Bool.false_eq_true, if_false, hg.kids y hy]
    refine List.filter_eq_self.2 fun c hc => ?_
    have : c < s.size := hm.valid.alive_lt c (hm.valid.kid_alive hc)
    simp [hlt c this]
  · rw [h3, hlt y hy]; simp [hg.data y hy]
  · simp only [Shape.kill]
    by_cases hy' : y < s.size + t.count
    · rw [(hB y).2 ⟨hy, hy'⟩]; simp
    · have := hg.models.dead_ge (x := y) (by rw [h.size]; omega)
      simp [this]

/-- **C48**, the calls: after `let c = clone_local_tree(x)`, `remove(c)` leaves all old nodes as they were; the IDs
of the copy are dead.  The same for `clone_foreign_tree`. -/
theorem C48_clone_remove (hm : Models f s) {cap : Nat} (cl : T → Option T) {c : Nat} {g : Forest T}
    (h : (∃ x, s.alive x = true ∧ Forest.cloneLocalTree cap cl x f = .ok c g) ∨
      (∃ fs ss x, Models fs ss ∧ ss.alive x = true ∧ Forest.cloneForeignTree cap cl fs x f = .ok c g)) :
    ∃ g' s', Forest.remove c g = .ok () g' ∧ OnlyDeadAdded f s g' s' := by
  rcases h with ⟨x, hx, h⟩ | ⟨fs, ss, x, hms, hx, h⟩
  · obtain ⟨t, ht, rfl⟩ := Tree.exists_tree hm.valid hx
    obtain ⟨rfl, _, _, s1, h2⟩ := (noHook_outcome (cloneLocal_spec (cap := cap) (cl := cl) hm ht hx ())).2 _ _ h
    obtain ⟨g', s'', e1, e2, _⟩ := C48_clone_then_remove hm h2
    exact ⟨g', s'', e1, e2⟩
  · obtain ⟨t, ht, rfl⟩ := Tree.exists_tree hms.valid hx
    obtain ⟨rfl, _, _, s1, h2⟩ :=
      (noHook_outcome (cloneForeign_spec (cap := cap) (cl := cl) hm hms ht hx ())).2 _ _ h
    obtain ⟨g', s'', e1, e2, _⟩ := C48_clone_then_remove hm h2
    exact ⟨g', s'', e1, e2⟩

/-- **C48**, single nodes: after `let c = create_insert(d, dest)`, `remove(c)` leaves all old nodes as they were,
in particular the child list the node had been put into. -/
theorem C48_create_remove (hm : Models f s) {cap : Nat} (hcap : s.size < cap) (d : T) {dest : InsertAs} {P : Nat}
    (ha : s.alive dest.place.anchor = true) (hpp : s.placeParent dest.place = some P) :
    ∃ g g' s', Forest.createInsert cap d dest f = .ok s.size g ∧ Forest.remove s.size g = .ok () g' ∧
      OnlyDeadAdded f s g' s' := by
  have hv := hm.valid
  obtain ⟨g, h1, h2, h3⟩ := createInsert_models hm hcap d ha hpp
  have hpp' : s.addRoot.placeParent dest.place = some P := by
    rw [← hpp]; cases dest <;> rfl
  have hself : NotSelf s.size dest.place := by
    intro a h e
    subst e
    have hs : s.alive s.size = true := by
      cases dest <;> simp [InsertAs.place, Place.anchor] at h ha <;> subst h <;> exact ha
    rw [hv.dead_size] at hs; cases hs
  obtain ⟨hpar, hkids, _⟩ := hv.addRoot.move_facts hpp' hself (not_at_fresh hv ha) h2.valid
  have hsz : (s.addRoot.move s.size dest.place).size = s.size + 1 := move_size _ _ _
  have hal : ∀ y, (s.addRoot.move s.size dest.place).alive y = upd s.alive s.size true y := fun y => by
    rw [move_alive]; rfl
  obtain ⟨g', i1, i2, i3⟩ := remove_char h2 s.size
  have hB : ∀ y, below (s.addRoot.move s.size dest.place) s.size y = true ↔ y = s.size := by
    intro y
    rw [below_iff]
    constructor
    · intro h
      induction h with
      | refl => rfl
      | step e1 _ ih =>
        subst ih
        rw [hpar] at e1
        split at e1
        · assumption
        · have := (hv.parent_alive _ _ e1).2
          rw [hv.dead_size] at this; cases this
    · rintro rfl; exact .refl
  have hlt : ∀ y, y < s.size → below (s.addRoot.move s.size dest.place) s.size y = false := by
    intro y hy
    cases e : below (s.addRoot.move s.size dest.place) s.size y with
    | false => rfl
    | true => have := (hB y).1 e; omega
  refine ⟨g, g', _, h1, i1, OnlyDeadAdded.mk (Grown.mk i2 (by show s.size ≤ (Shape.move _ _ _).size; rw [hsz]; omega)
    (fun y hy => ?_) (fun y hy => ?_) (fun y hy => ?_) (fun y hy => ?_)) i2.describes (fun y hy => ?_)⟩
  · have : y ≠ s.size := by omega
    simp [Shape.kill, hlt y hy, hal, upd, this]
  · have : y ≠ s.size := by omega
    simp only [Shape.kill, hlt y hy, Bool.false_eq_true, if_false]
    rw [hpar, if_neg this]; rfl
  · simp only [Shape.kill, hlt y hy, Bool.false_eq_true, if_false]
    have h4 := hkids y
    have h5 : (s.addRoot.kids y).erase s.size = s.kids y := by
      refine List.erase_of_not_mem fun h => ?_
      have := hv.kid_alive (x := s.size) (p := y) h
      rw [hv.dead_size] at this; cases this
    rw [h5] at h4
    rw [← h4, (h2.valid.kids_nodup y).erase_eq_filter]
    refine List.filter_congr fun c _ => ?_
    rw [Bool.eq_iff_iff]
    have := hB c
    cases e : below (s.addRoot.move s.size dest.place) s.size c with
    | false =>
      rw [e] at this; simp only [Bool.false_eq_true, false_iff] at this
      simp [this]
    | true =>
      rw [e] at this; simp only [true_iff] at this
      simp [this]
  · rw [i3, hlt y hy, h3, if_neg (show y ≠ s.size by omega)]; simp
  · simp only [Shape.kill]
    by_cases e : y = s.size
    · rw [(hB y).2 e]; simp
    · rw [hal]
      have := hm.dead_ge hy
      simp [upd, e, this]

/-- Cloning the subtree of `2` in the sample and removing the copy: `0` has its old children. -/
example : ∃ c g g', Forest.cloneLocalTree 100 some 2 Sample.built = .ok c g ∧
    Forest.remove c g = .ok () g' ∧ g'.firstChildId 0 = .ok (some 1) ∧ g'.getData 5 = some 15 := by
  obtain ⟨g, s', h, _⟩ := C28_clone_local Sample.models (x := 2) rfl Sample.isTree2 rfl (cap := 100) (by decide)
    some (by decide)
  obtain ⟨g', s'', h1, h2⟩ := C48_clone_remove Sample.models _ (.inl ⟨2, rfl, h⟩)
  refine ⟨_, g, g', h, h1, ?_, ?_⟩
  · rw [h2.describes.first 0 (by rw [h2.grown.alive 0 (by decide)]; rfl), h2.grown.kids 0 (by decide)]; rfl
  · rw [h2.grown.data 5 (by decide)]; decide

/-! ### The hypotheses can be met

Each example applies the theorem named in its comment to a concrete forest. -/

section
/-- `C45_last_insert_wins`: node 2 moved to node 6, then to node 1. -/
example {f2 : Forest Nat} := C45_last_insert_wins Sample.models (x := 2) (d1 := .lastChildOf 6) (d2 := .firstChildOf 1) (f2 := f2) rfl
  (show ¬ Forest.lastChildId _ _ = _ by decide) (fun h => absurd h.1 (by decide)) (fun h => absurd h.1 (by decide))

/-- `C48_clone_then_remove`: the tree of node 2. -/
example : ∃ g g' s'', Forest.cloneLocalTree 100 some 2 Sample.built = .ok 8 g ∧ Forest.remove 8 g = .ok () g' ∧
    OnlyDeadAdded Sample.built Sample.shape g' s'' := by
  obtain ⟨g, s', h1, h2⟩ := ((noHook_outcome (cloneLocal_spec (cap := 100) (cl := some) (t := Sample.tree2) Sample.models Sample.isTree2 rfl ())).1
    (by decide)).1 (by decide)
  obtain ⟨g', s'', h3, h4, _⟩ := C48_clone_then_remove Sample.models h2
  exact ⟨g, g', s'', h1, h3, h4⟩

/-- `C48_create_remove`: a new child of node 2. -/
example := C48_create_remove Sample.models (cap := 100) (by decide) 42 (dest := .lastChildOf 2) (P := 2) rfl rfl

end

end Treena
