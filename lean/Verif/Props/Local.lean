import Verif.Proof.Taint
import Verif.Props.Consistency
import Verif.Props.SampleRun
/-!
# C68, C69: calls are local, and damage is contained

`Spec/Local.lean` has the vocabulary.
-/
set_option autoImplicit false

namespace Treena
variable {T : Type} {cap um : Nat} {Q : Nat → Prop} {f g : Forest T}

/-! ### C68 -/

/-- **C68**.  Two forests that are the same in a separate part `Q` – whatever the rest of them is, sound or
destroyed – give the same answer to every call that is given IDs of `Q` only; they are the same in `Q` again
afterwards, and outside `Q` the call changed nothing. -/
theorem C68_calls_are_local (h : SameIn cap Q f g) (q : Req T) (hq : ∀ x ∈ q.ids, Q x) :
    (q.exec cap um f).2 = (q.exec cap um g).2 ∧ SameIn cap Q (q.exec cap um f).1 (q.exec cap um g).1 ∧
      SameOut cap Q f (q.exec cap um f).1 := Req.exec_local cap um h q hq

/-- The same for the mutating calls with arbitrary hooks and `T::clone`. -/
theorem C68_mutations_are_local (h : SameIn cap Q f g) (op : Op T) (hq : ∀ x ∈ op.ids, Q x) :
    op.newId cap f = op.newId cap g ∧ SameIn cap Q (op.step cap f) (op.step cap g) ∧ SameOut cap Q f (op.step cap f) :=
  Op.step_local cap h op hq

/-- A client that gives IDs of `Q` only cannot tell the two forests apart, however many calls it makes. -/
theorem C68_client (client : List (Ans T) → Req T) (hq : ∀ seen, ∀ x ∈ (client seen).ids, Q x) (n : Nat) :
    ∀ {f g : Forest T} (seen : List (Ans T)), SameIn cap Q f g →
      transcript cap um client n f seen = transcript cap um client n g seen := by
  induction n with
  | zero => intro f g seen _; rfl
  | succ n ih =>
    intro f g seen h
    obtain ⟨h1, h2, _⟩ := C68_calls_are_local (um := um) h (client seen) (hq seen)
    simp only [transcript]
    rw [h1]
    exact ih _ h2

/-- The part reached through links from some IDs, together with the IDs not handed out, is separate. -/
theorem reach_separate (hl : f.data.length = f.hier.nbrs.length) (ids : List Nat) :
    Separate cap (fun y => (∃ x ∈ ids, LinkPath f x y) ∨ f.issued ≤ y) f := by
  refine ⟨fun x hx nb hn y hy => ?_, fun x hx _ => .inr ?_⟩
  · rcases hx with ⟨z, hz, hp⟩ | hx
    · exact .inl ⟨z, hz, .step hp hn hy⟩
    · unfold Forest.issued at hx
      rw [Hier.neighbors, List.getElem?_eq_none (by omega)] at hn; cases hn
  · unfold Forest.issued; omega

/-- **C68**, framing.  In any forest, even a destroyed one, a call leaves every node alone that it cannot reach
through links from the IDs it is given. -/
theorem C68_frame (hl : f.data.length = f.hier.nbrs.length) (hc : f.issued ≤ cap) (op : Op T) {y : Nat} (hy : y < f.issued)
    (hn : ∀ x ∈ op.ids, ¬ LinkPath f x y) :
    (op.step cap f).hier.nbrs[y]? = f.hier.nbrs[y]? ∧ (op.step cap f).data[y]? = f.data[y]? := by
  have h := (Op.step_local cap (sameIn_refl (reach_separate (cap := cap) hl op.ids)) op fun x hx => .inl ⟨x, hx, .refl⟩).2.2
  have hq : ¬ ((∃ x ∈ op.ids, LinkPath f x y) ∨ f.issued ≤ y) := by
    rintro (⟨x, hx, h⟩ | h)
    · exact hn x hx h
    · omega
  exact ⟨h.links y hq, h.data y hq (by omega)⟩

theorem accessors_congr {y : Nat} (hd : f.getData y = g.getData y) (h1 : f.hier.neighbors y = g.hier.neighbors y)
    (h2 : ∀ nb, f.hier.neighbors y = some nb → ∀ z, nb.mentions z → f.hier.neighbors z = g.hier.neighbors z) :
    f.isAlive y = g.isAlive y ∧ f.parentId y = g.parentId y ∧ f.nextSiblingId y = g.nextSiblingId y ∧
      f.prevSiblingId y = g.prevSiblingId y ∧ f.firstChildId y = g.firstChildId y ∧ f.lastChildId y = g.lastChildId y := by
  refine ⟨by rw [isAlive_getData, isAlive_getData, hd], ?_⟩
  unfold Forest.parentId Forest.nextSiblingId Forest.prevSiblingId Forest.firstChildId Forest.lastChildId Forest.nbr
  rw [← h1]
  cases e : f.hier.neighbors y with
  | none => exact ⟨rfl, rfl, rfl, rfl, rfl⟩
  | some nb =>
    have hm := h2 nb e
    simp only [expect_some]
    refine ⟨trivial, trivial, ?_, trivial, ?_⟩
    · unfold Neighbors.prevSibling
      cases ep : nb.prevCyc with
      | none => rfl
      | some v => simp only [hm v (.inr (.inl ep))]
    · unfold Neighbors.lastChild Neighbors.firstLastChild Neighbors.firstChild
      cases nb.isAlive with
      | false => rfl
      | true =>
        cases ef : nb.first with
        | none => rfl
        | some v => simp only [Bool.not_true, Bool.false_eq_true, if_false, hm v (.inr (.inr (.inr ef)))]

/-- **C68**, other trees.  In a consistent forest a call leaves all nodes alone that are in other trees than the
nodes it is given: their data and all their accessors stay as they are. -/
theorem C68_other_trees (hc : Consistent f) (hl : f.issued ≤ cap) (op : Op T) {y : Nat} (hy : f.isAlive y = true)
    (hn : ∀ x ∈ op.ids, ¬ Connected f x y) :
    (op.step cap f).getData y = f.getData y ∧ (op.step cap f).isAlive y = true ∧
      (op.step cap f).parentId y = f.parentId y ∧ (op.step cap f).nextSiblingId y = f.nextSiblingId y ∧
      (op.step cap f).prevSiblingId y = f.prevSiblingId y ∧ (op.step cap f).firstChildId y = f.firstChildId y ∧
      (op.step cap f).lastChildId y = f.lastChildId y := by
  obtain ⟨s, hm⟩ := hc
  have hpar : ∀ x p, s.parent x = some p → f.parentId x = .ok (some p) := fun x p h => by
    rw [hm.describes.parent x (hm.valid.parent_alive x p h).1, h]
  have hcl : ∀ x p, s.parent x = some p → ((∃ z ∈ op.ids, Connected f z x) ↔ ∃ z ∈ op.ids, Connected f z p) := fun x p h =>
    ⟨fun ⟨z, hz, hc⟩ => ⟨z, hz, .up hc (hpar x p h)⟩, fun ⟨z, hz, hc⟩ => ⟨z, hz, .down hc (hpar x p h)⟩⟩
  have hrel : ∀ z x, LinkPath f z x → Connected f z x := fun z x h => by
    induction h with
    | refl => exact .refl
    | @step u w nb _ hn hw ih =>
      rw [models_neighbors hm] at hn
      cases e : s.alive u with
      | false => rw [e] at hn; cases hn
      | true =>
        rw [e] at hn; cases hn
        rcases Shape.mentions_rel hm.valid hw with rfl | h | h | ⟨p, h1, h2⟩
        · exact ih
        · exact .up ih (hpar _ _ h)
        · exact .down ih (hpar _ _ h)
        · exact .down (.up ih (hpar _ _ h1)) (hpar _ _ h2)
  have hlen : f.data.length = f.hier.nbrs.length := by rw [hm.dataLen, hm.repr.1]
  have key : ∀ z, f.isAlive z = true → (∀ x ∈ op.ids, ¬ Connected f x z) →
      (op.step cap f).hier.neighbors z = f.hier.neighbors z ∧ (op.step cap f).getData z = f.getData z := fun z ha hz => by
    have hlt : z < f.issued := by
      apply Classical.byContradiction
      intro hge
      rw [dead_of_ge (by omega)] at ha; cases ha
    obtain ⟨h1, h2⟩ := C68_frame hlen hl op hlt fun x hx h => hz x hx (hrel x z h)
    exact ⟨by unfold Hier.neighbors; rw [h1], by unfold Forest.getData; rw [h2]⟩
  obtain ⟨k1, k2⟩ := key y hy hn
  obtain ⟨r0, r⟩ := accessors_congr k2 k1 fun nb hb z hz => by
    rw [k1, models_neighbors hm] at hb
    cases e : s.alive y with
    | false => rw [e] at hb; cases hb
    | true =>
      rw [e] at hb; cases hb
      refine (key z ?_ fun x hx h => ?_).1
      · rw [hm.isAlive]; exact Shape.mentions_alive hm.valid e hz
      · have := Shape.mentions_closed hm.valid (B := fun x => ¬ ∃ z ∈ op.ids, Connected f z x)
          (fun x p h => not_congr (hcl x p h)) (x := y) (by rintro ⟨x, hx, h⟩; exact hn x hx h) hz
        exact this ⟨x, hx, h⟩
  exact ⟨k2, by rw [r0]; exact hy, r⟩

/-! ### C69 -/

/-- **C69**.  Take any history, with calls that destroy trees, and let `B` be the tainted nodes: those in the
trees given to harmful calls, and whatever was in a tree given to a call together with one of them since.
Then the rest of the forest is a well-formed ordered forest `s`, as if the tainted nodes had been removed: all
accessors of the forest itself agree with it on all other nodes. -/
theorem C69_the_rest_is_sound (cap : Nat) (ops : List (Op T)) :
    ∃ s : Shape, s.Valid ∧ Models ((Op.run cap Forest.new ops).without (taint cap Forest.new (fun _ => False) ops)) s ∧
      (∀ x, s.alive x = true ↔ (Op.run cap Forest.new ops).isAlive x = true ∧ ¬ taint cap Forest.new (fun _ => False) ops x) ∧
      ∀ x, s.alive x = true →
        (Op.run cap Forest.new ops).parentId x = .ok (s.parent x) ∧
        (Op.run cap Forest.new ops).nextSiblingId x = .ok (s.next x) ∧
        (Op.run cap Forest.new ops).prevSiblingId x = .ok (s.prev x) ∧
        (Op.run cap Forest.new ops).firstChildId x = .ok (s.kids x).head? ∧
        (Op.run cap Forest.new ops).lastChildId x = .ok (s.kids x).getLast? := by
  have h : Contained cap (Op.run cap (Forest.new : Forest T) ops) _ := (Contained.start new_consistent (Nat.zero_le _)).run ops
  obtain ⟨s, hm⟩ := h.sound
  refine ⟨s, hm.valid, hm, fun x => by rw [h.aliveS hm]; exact And.comm, fun x hx => ?_⟩
  have hq : Clean (Op.run cap Forest.new ops) (taint cap Forest.new (fun _ => False) ops) x := .inl ((h.aliveS hm x).1 hx).1
  have hd := hm.describes
  exact ⟨(Forest.linkOf_same h.clean hq .parent).1.trans (hd.parent x hx), (Forest.linkOf_same h.clean hq .next).1.trans (hd.next x hx),
    (Forest.linkOf_same h.clean hq .prev).1.trans (hd.prev x hx), (Forest.linkOf_same h.clean hq .firstChild).1.trans (hd.first x hx),
    (Forest.linkOf_same h.clean hq .lastChild).1.trans (hd.last x hx)⟩

/-- **C69**, calls.  A call that is given no live tainted node is answered as if the tainted nodes had been
removed. -/
theorem C69_calls (cap um : Nat) (ops : List (Op T)) (q : Req T)
    (hq : ∀ x ∈ q.ids, (Op.run cap Forest.new ops).isAlive x = true → ¬ taint cap Forest.new (fun _ => False) ops x) :
    (q.exec cap um (Op.run cap Forest.new ops)).2 =
      (q.exec cap um ((Op.run cap Forest.new ops).without (taint cap Forest.new (fun _ => False) ops))).2 := by
  have h : Contained cap (Op.run cap (Forest.new : Forest T) ops) _ := (Contained.start new_consistent (Nat.zero_le _)).run ops
  refine (C68_calls_are_local h.clean q fun x hx => ?_).1
  cases e : (Op.run cap Forest.new ops).isAlive x with
  | true => exact .inl (hq x hx e)
  | false => exact .inr e

/-- **C69**, clients.  So is a client that never gives a tainted ID. -/
theorem C69_client (cap um : Nat) (ops : List (Op T)) (client : List (Ans T) → Req T)
    (hq : ∀ seen, ∀ x ∈ (client seen).ids, ¬ taint cap Forest.new (fun _ => False) ops x) (n : Nat) (seen : List (Ans T)) :
    transcript cap um client n (Op.run cap Forest.new ops) seen =
      transcript cap um client n ((Op.run cap Forest.new ops).without (taint cap Forest.new (fun _ => False) ops)) seen := by
  have h : Contained cap (Op.run cap (Forest.new : Forest T) ops) _ := (Contained.start new_consistent (Nat.zero_le _)).run ops
  exact C68_client client (fun seen x hx => .inl (hq seen x hx)) n seen h.clean

/-- **C69**, progress.  A further call that is given no live tainted node and is not harmful does to the rest what it
would do if the tainted nodes had been removed; the tainted nodes stay the same. -/
theorem C69_one_call (cap : Nat) (ops : List (Op T)) (op : Op T)
    (hq : ∀ x ∈ op.ids, (Op.run cap Forest.new ops).isAlive x = true → ¬ taint cap Forest.new (fun _ => False) ops x)
    (hh : ¬ op.Harmful (Op.run cap Forest.new ops)) :
    taint cap Forest.new (fun _ => False) (ops ++ [op]) = taint cap Forest.new (fun _ => False) ops ∧
      (Op.run cap Forest.new (ops ++ [op])).without (taint cap Forest.new (fun _ => False) ops) =
        op.step cap ((Op.run cap Forest.new ops).without (taint cap Forest.new (fun _ => False) ops)) := by
  have h : Contained cap (Op.run cap (Forest.new : Forest T) ops) _ := (Contained.start new_consistent (Nat.zero_le _)).run ops
  have hq' : ∀ x ∈ op.ids, Clean (Op.run cap Forest.new ops) (taint cap Forest.new (fun _ => False) ops) x := fun x hx => by
    cases e : (Op.run cap Forest.new ops).isAlive x with
    | true => exact .inl (hq x hx e)
    | false => exact .inr e
  have happ : ∀ (ops : List (Op T)) (f : Forest T) (B : Nat → Prop),
      taint cap f B (ops ++ [op]) = taintStep cap (Op.run cap f ops) (taint cap f B ops) op := fun ops => by
    induction ops with
    | nil => intro f B; rfl
    | cons o ops ih => intro f B; exact ih _ _
  refine ⟨?_, ?_⟩
  · rw [happ]
    unfold taintStep
    rw [if_neg]
    rintro (⟨x, hx, h1, h2⟩ | h1)
    · exact hq x (op.targets_sub hx) h2 h1
    · exact hh h1
  · have := (h.good_call op hq' fun h' => hh ((harmful_local h.clean op hq').2 h')).2
    rw [← this]
    simp [Op.run]

/-- Tainted nodes stay tainted, and only harmful calls are a source of taint. -/
theorem C69_taint (cap : Nat) (ops : List (Op T)) :
    (∀ ops' x, taint cap Forest.new (fun _ => False) ops x → taint cap Forest.new (fun _ => False) (ops ++ ops') x) ∧
      (Careful cap Forest.new ops → ∀ x, ¬ taint cap (Forest.new : Forest T) (fun _ => False) ops x) := by
  have happ : ∀ (ops' ops : List (Op T)) (f : Forest T) (B : Nat → Prop),
      taint cap f B (ops ++ ops') = taint cap (Op.run cap f ops) (taint cap f B ops) ops' := fun ops' ops => by
    induction ops with
    | nil => intro f B; rfl
    | cons o ops ih => intro f B; exact ih _ _
  refine ⟨fun ops' x h => ?_, fun h x => ?_⟩
  · rw [happ]; exact taint_mono _ _ _ h
  · rw [taint_careful ops _ h]; exact id

/-- **C69**, copies.  Copying a tree, tainted or not, taints nothing: the copies are sound. -/
theorem C69_copies {S : Type} (cap : Nat) (ops : List (Op T)) (cl : T → Option T) (hook : Forest.MapHook S) (c : S) (x : Nat) :
    taint cap Forest.new (fun _ => False) (ops ++ [.cloneLocal S cl hook c x]) = taint cap Forest.new (fun _ => False) ops ∧
      ∀ y, (Op.run cap Forest.new ops).issued ≤ y → ¬ taint cap Forest.new (fun _ => False) (ops ++ [.cloneLocal S cl hook c x]) y := by
  have h : Contained cap (Op.run cap (Forest.new : Forest T) ops) _ := (Contained.start new_consistent (Nat.zero_le _)).run ops
  have happ : ∀ (ops' ops : List (Op T)) (f : Forest T) (B : Nat → Prop),
      taint cap f B (ops ++ ops') = taint cap (Op.run cap f ops) (taint cap f B ops) ops' := fun ops' ops => by
    induction ops with
    | nil => intro f B; rfl
    | cons o ops ih => intro f B; exact ih _ _
  have e : taint cap Forest.new (fun _ => False) (ops ++ [.cloneLocal S cl hook c x]) = taint cap Forest.new (fun _ => False) ops := by
    rw [happ]
    simp only [taint]
    exact taintStep_copy cl hook c x
  refine ⟨e, fun y hy hb => ?_⟩
  rw [e] at hb
  have := h.known y hb
  omega

/-! A sound tree `0 – 1`, and a tree `2` with the children `3`, `4` that is destroyed by putting `4` where it is; after
that a node `5` is made below `1`. -/

/-- A history with a harmful call in one tree and calls in another. -/
def besideHistory : List (Op Nat) :=
  [.createRoot 10, .createInsert 11 (.lastChildOf 0), .createRoot 12, .createInsert 13 (.lastChildOf 2),
    .createInsert 14 (.lastChildOf 2), .insert 4 (.lastChildOf 2), .createInsert 15 (.lastChildOf 1), .detach 1]

theorem beside_harmless {pre : List (Op Nat)} {B : Nat → Prop} (op : Op Nat)
    (h1 : ∀ x ∈ op.ids, ¬ B x) (h2 : ¬ op.Harmful (Op.run 100 Forest.new pre)) :
    taintStep 100 (Op.run 100 Forest.new pre) B op = B := by
  unfold taintStep
  rw [if_neg]
  rintro (⟨x, hx, hb, _⟩ | h)
  · exact h1 x (op.targets_sub hx) hb
  · exact h2 h

theorem beside_parents : ∀ y p, (Op.run 100 Forest.new (besideHistory.take 5)).parentId y = .ok (some p) →
    (y = 1 ∧ p = 0) ∨ (y = 3 ∧ p = 2) ∨ (y = 4 ∧ p = 2) := by
  intro y p h
  by_cases hy : y < 5
  · have : y = 0 ∨ y = 1 ∨ y = 2 ∨ y = 3 ∨ y = 4 := by omega
    rcases this with rfl | rfl | rfl | rfl | rfl
    · rw [show (Op.run 100 Forest.new (besideHistory.take 5)).parentId 0 = .ok none by decide] at h; cases h
    · rw [show (Op.run 100 Forest.new (besideHistory.take 5)).parentId 1 = .ok (some 0) by decide] at h; cases h; simp
    · rw [show (Op.run 100 Forest.new (besideHistory.take 5)).parentId 2 = .ok none by decide] at h; cases h
    · rw [show (Op.run 100 Forest.new (besideHistory.take 5)).parentId 3 = .ok (some 2) by decide] at h; cases h; simp
    · rw [show (Op.run 100 Forest.new (besideHistory.take 5)).parentId 4 = .ok (some 2) by decide] at h; cases h; simp
  · unfold Forest.parentId Forest.nbr Hier.neighbors at h
    rw [List.getElem?_eq_none (by
      have : (Op.run 100 (Forest.new : Forest Nat) (besideHistory.take 5)).hier.nbrs.length = 5 := by decide
      omega)] at h
    cases h

theorem beside_taint (x : Nat) (h : taint 100 Forest.new (fun _ => False) besideHistory x) : x = 2 ∨ x = 3 ∨ x = 4 := by
  have key : ∀ y, taintStep 100 (Op.run 100 Forest.new (besideHistory.take 5)) (fun _ => False) (.insert 4 (.lastChildOf 2)) y →
      y = 2 ∨ y = 3 ∨ y = 4 := by
    intro y hy
    unfold taintStep at hy
    split at hy
    · rcases hy with h | ⟨hal, x, hx, hc⟩ | h
      · exact h.elim
      · have hpar := beside_parents
        have hx' : x = 4 ∨ x = 2 := by simpa [Op.targets, Op.ids, InsertAs.place, Place.anchor] using hx
        clear hal
        induction hc with
        | refl => omega
        | @up u p _ hp ih =>
          rcases hpar _ _ hp with ⟨rfl, rfl⟩ | ⟨rfl, rfl⟩ | ⟨rfl, rfl⟩ <;> simp_all
        | @down u p _ hp ih =>
          rcases hpar _ _ hp with ⟨rfl, rfl⟩ | ⟨rfl, rfl⟩ | ⟨rfl, rfl⟩ <;> simp_all
      · have : (Op.run 100 (Forest.new : Forest Nat) (besideHistory.take 5)).issued = 5 := by decide
        have h2 : (Op.step 100 (Op.run 100 (Forest.new : Forest Nat) (besideHistory.take 5)) (.insert 4 (.lastChildOf 2))).issued = 5 := by
          decide
        omega
    · exact hy.elim
  have e5 : taint 100 Forest.new (fun _ => False) besideHistory =
      taintStep 100 (Op.run 100 Forest.new (besideHistory.take 5)) (fun _ => False) (.insert 4 (.lastChildOf 2)) := by
    have hB : ∀ y, y < 2 → ¬ taintStep 100 (Op.run 100 Forest.new (besideHistory.take 5)) (fun _ => False) (.insert 4 (.lastChildOf 2)) y :=
      fun y hy h => by have := key y h; omega
    have s1 : ∀ (pre : List (Op Nat)) (op : Op Nat), ¬ op.Harmful (Op.run 100 Forest.new pre) →
        taintStep 100 (Op.run 100 Forest.new pre) (fun _ => False) op = fun _ => False := fun pre op h =>
      beside_harmless op (fun _ _ => id) h
    have t0 := s1 [] (.createRoot 10) (by simp [Op.Harmful])
    have t1 := s1 (besideHistory.take 1) (.createInsert 11 (.lastChildOf 0)) (by simp [Op.Harmful])
    have t2 := s1 (besideHistory.take 2) (.createRoot 12) (by simp [Op.Harmful])
    have t3 := s1 (besideHistory.take 3) (.createInsert 13 (.lastChildOf 2)) (by simp [Op.Harmful])
    have t4 := s1 (besideHistory.take 4) (.createInsert 14 (.lastChildOf 2)) (by simp [Op.Harmful])
    have t6 := beside_harmless (pre := besideHistory.take 6) (.createInsert 15 (.lastChildOf 1))
      (B := taintStep 100 (Op.run 100 Forest.new (besideHistory.take 5)) (fun _ => False) (.insert 4 (.lastChildOf 2)))
      (fun x hx => hB x (by simp [Op.ids, InsertAs.place, Place.anchor] at hx; omega)) (by simp [Op.Harmful])
    have t7 := beside_harmless (pre := besideHistory.take 7) (.detach 1)
      (B := taintStep 100 (Op.run 100 Forest.new (besideHistory.take 5)) (fun _ => False) (.insert 4 (.lastChildOf 2)))
      (fun x hx => hB x (by simp [Op.ids] at hx; omega)) (by simp [Op.Harmful])
    simp only [besideHistory, List.take_succ_cons, List.take_zero, Op.run, List.foldl_cons, List.foldl_nil] at t0 t1 t2 t3 t4 t6 t7 ⊢
    simp only [taint, t0, t1, t2, t3, t4]
    rw [t6, t7]
  rw [e5] at h
  exact key x h

/-- The forest is destroyed, the tree `0` and the tree `1 – 5` are not tainted, and hence sound. -/
example : Undescribable (Op.run 100 Forest.new (besideHistory.take 6)) ∧
    (∀ x, x = 0 ∨ x = 1 ∨ x = 5 → ¬ taint 100 Forest.new (fun _ => False) besideHistory x) ∧
    ∃ s : Shape, s.Valid ∧ s.alive 0 = true ∧ s.alive 1 = true ∧ s.alive 5 = true ∧
      (Op.run 100 Forest.new besideHistory).firstChildId 1 = .ok (s.kids 1).head? ∧ (s.kids 1).head? = some 5 := by
  have ht : ∀ x, x = 0 ∨ x = 1 ∨ x = 5 → ¬ taint 100 Forest.new (fun _ => False) besideHistory x := fun x hx h => by
    have := beside_taint x h; omega
  refine ⟨?_, ht, ?_⟩
  · refine (C05_first_harm (besideHistory.take 5) [] (.insert 4 (.lastChildOf 2)) ?_ ?_).2.1
    · simp [Careful, Op.Harmful, besideHistory]
    · show Forest.lastChildId _ _ = _
      decide
  · obtain ⟨s, h1, _, h3, h4⟩ := C69_the_rest_is_sound 100 besideHistory
    have a0 := (h3 0).2 ⟨by decide, ht 0 (by simp)⟩
    have a1 := (h3 1).2 ⟨by decide, ht 1 (by simp)⟩
    have a5 := (h3 5).2 ⟨by decide, ht 5 (by simp)⟩
    refine ⟨s, h1, a0, a1, a5, (h4 1 a1).2.2.2.1, ?_⟩
    have e : (Op.run 100 Forest.new besideHistory).firstChildId 1 = .ok (some 5) := by decide
    rw [(h4 1 a1).2.2.2.1] at e
    exact Except.ok.inj e

/-- The part `{0, 1}` of the destroyed forest is separate: `C68_calls_are_local` applies to it. -/
example : Separate 100 (fun x => (∃ y ∈ [1], LinkPath (Op.run 100 Forest.new (besideHistory.take 6)) y x) ∨
    (Op.run 100 Forest.new (besideHistory.take 6)).issued ≤ x) (Op.run 100 Forest.new (besideHistory.take 6)) :=
  reach_separate (by decide) _

/-! ### The hypotheses can be met

Each example applies the theorem named in its comment to a concrete forest. -/

section
/-- `C68_calls_are_local`: node 6, and the sample forest before and after `detach(2)`. -/
example := C68_calls_are_local (um := 255) Sample.same_six (.dft 6 [.front, .back]) (by simp [Req.ids, Sample.six])

/-- `C68_mutations_are_local`: the same. -/
example := C68_mutations_are_local Sample.same_six (.createInsert 42 (.lastChildOf 6)) (by simp [Op.ids, InsertAs.place, Place.anchor, Sample.six])

/-- `C68_client`: a client that only knows node 6. -/
example (n : Nat) := C68_client (cap := 100) (um := 255) (fun seen => if seen.length = 3 then .data 6 else .dft 6 [.front, .back])
  (by intro seen x hx; split at hx <;> (simp [Req.ids] at hx; exact .inl hx)) n [] Sample.same_six

/-- `C68_frame`: detaching node 2 leaves node 6 alone. -/
example := C68_frame (cap := 100) (f := Sample.built) (by decide) (by decide) (.detach 2) (y := 6) (by decide)
  (by simp only [Op.ids, List.mem_singleton]; rintro x rfl h; exact absurd ((Sample.path_six h).2 rfl) (by decide))

/-- `C68_other_trees`: removing node 2 leaves node 6 alone. -/
example := C68_other_trees (cap := 100) Sample.consistent (by decide) (.remove 2) (y := 6) (by decide)
  (by simp only [Op.ids, List.mem_singleton]; rintro x rfl; exact Sample.not_connected (by decide))

/-- `C69_calls`: the tree 1 – 5 beside a destroyed one. -/
example := C69_calls 100 255 besideHistory (.dft 1 [.front, .front, .back])
  (by simp only [Req.ids, List.mem_singleton]; rintro x rfl _ h; have := beside_taint 1 h; omega)

/-- `C69_client`: a client that only knows node 1. -/
example (n : Nat) := C69_client 100 255 besideHistory (fun seen => if seen.length = 3 then .data 1 else .dft 1 [.front, .back])
  (by intro seen x hx h; have := beside_taint x h; split at hx <;> simp [Req.ids] at hx <;> omega) n []

/-- `C69_one_call`: removing node 5. -/
example := C69_one_call 100 besideHistory (.remove 5)
  (by simp only [Op.ids, List.mem_singleton]; rintro x rfl _ h; have := beside_taint 5 h; omega) (by simp [Op.Harmful])

end

end Treena
