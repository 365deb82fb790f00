import Verif.Spec.Wild
import Verif.Proof.Builders
import Verif.Props.Failures
/-! Builders in the hands of arbitrary closures. -/
set_option autoImplicit false

namespace Treena
open Shape
variable {T : Type} {f g : Forest T} {s s' : Shape}

/-! ### Any builder state -/

theorem Sown.refl (hm : Models f s) : Sown f s f s :=
  ⟨hm, Nat.le_refl _, fun _ _ => rfl, fun _ _ => rfl, fun _ _ => rfl, fun x _ => by
    rw [List.filter_eq_self]
    intro y hy
    simpa using hm.valid.alive_lt _ (hm.valid.kid_alive hy), fun _ _ _ => by omega⟩

theorem Sown.trans {h : Forest T} {s'' : Shape} (h1 : Sown f s g s') (h2 : Sown g s' h s'') : Sown f s h s'' := by
  have hs1 := h1.size
  have hs2 := h2.size
  refine ⟨h2.models, by omega, ?_, ?_, ?_, ?_, ?_⟩
  · intro x hx; rw [h2.alive x (by omega), h1.alive x hx]
  · intro x hx; rw [h2.data x (by omega), h1.data x hx]
  · intro x hx; rw [h2.parent x (by omega), h1.parent x hx]
  · intro x hx
    rw [← h1.kids x hx, ← h2.kids x (by omega), List.filter_filter]
    congr 1
    funext y
    by_cases hy : y < s.size
    · simp [hy]; omega
    · simp [hy]
  · intro x hx1 hx2
    by_cases hx : x < s'.size
    · rw [h2.alive x hx]; exact h1.fresh x hx1 hx
    · exact h2.fresh x (by omega) hx2

theorem filter_put (pl : Place) (x : Nat) (l : List Nat) (p : Nat → Bool) (hx : p x = false)
    (ha : ∀ a, pl = .before a ∨ pl = .after a → a ∈ l) : (pl.put x l).filter p = l.filter p := by
  cases pl with
  | firstChildOf a => simp [Place.put, hx]
  | lastChildOf a => simp [Place.put, hx]
  | before a =>
    conv_rhs => rw [← before_after (ha a (.inl rfl))]
    simp [Place.put, List.filter_cons, hx]
  | after a =>
    conv_rhs => rw [← before_after (ha a (.inr rfl))]
    simp [Place.put, List.filter_cons, hx]

theorem sown_addRoot {d : T} (hm : Models f s) (h2 : Models g s.addRoot)
    (h3 : ∀ x, g.getData x = if x = s.size then some d else f.getData x) : Sown f s g s.addRoot := by
  have h := ((Grown.refl hm).addRoot h2 h3).1
  refine ⟨h2, h.size, h.alive, h.data, h.parent, ?_, ?_⟩
  · intro x hx
    rw [h.kids x hx]; exact (Sown.refl hm).kids x hx
  · intro x h1 h2
    have h2 : x < s.size + 1 := h2
    have : x = s.size := by omega
    subst this; exact s.addRoot_alive_self

theorem sown_move {d : T} {pl : Place} {P : Nat} (hm : Models f s) (ha : s.alive pl.anchor = true)
    (hpp : s.placeParent pl = some P) (h2 : Models g (s.addRoot.move s.size pl))
    (h3 : ∀ x, g.getData x = if x = s.size then some d else f.getData x) : Sown f s g (s.addRoot.move s.size pl) := by
  have hv := hm.valid
  have hno : ∀ q, (s.kids q).erase s.size = s.kids q := fun q => List.erase_of_not_mem (not_mem_fresh hv q)
  have hpp' : s.addRoot.placeParent pl = some P := by cases pl <;> exact hpp
  have hmv : s.addRoot.move s.size pl = (s.addRoot.detach s.size).attach s.size P
      (pl.put s.size ((s.addRoot.detach s.size).kids P)) := by
    unfold Shape.move; rw [hpp']
  refine ⟨h2, ?_, ?_, ?_, ?_, ?_, ?_⟩
  · rw [move_size]; exact Nat.le_succ _
  · intro x hx; rw [move_alive]; simp only [Shape.addRoot, upd]; rw [if_neg (by omega)]
  · intro x hx; rw [h3 x, if_neg (by omega)]
  · intro x hx
    rw [hmv]
    simp only [Shape.attach, Shape.detach, upd, Shape.addRoot]
    rw [if_neg (by omega), if_neg (by omega)]
  · intro x hx
    have hk := (Sown.refl hm).kids x hx
    rw [hmv]
    simp only [Shape.attach, Shape.detach, upd, Shape.addRoot, hno]
    split
    · rename_i e
      subst e
      rw [filter_put _ _ _ _ (by simp), hk]
      intro a h
      rcases h with rfl | rfl
      · exact (hv.mem_kids a x).2 hpp
      · exact (hv.mem_kids a x).2 hpp
    · exact hk
  · intro x h1 h2
    rw [move_size] at h2
    have h2 : x < s.size + 1 := h2
    have : x = s.size := by omega
    subst this; rw [move_alive]; exact s.addRoot_alive_self

/-- The outcome of a call: the forest has at most grown, and the call has ended, perhaps with a panic. -/
def Ends (f : Forest T) (s : Shape) : Res (Nest T) Unit → Prop
  | .ok _ b => ∃ s', Sown f s b.forest s'
  | .fail e b => (∃ msg, e = .panic msg) ∧ ∃ s', Sown f s b.forest s'

theorem insert_fresh {d : T} (hm : Models f s) {f1 : Forest T} (hm1 : Models f1 s.addRoot)
    (hd1 : ∀ x, f1.getData x = if x = s.size then some d else f.getData x) (dest : InsertAs)
    (hl : ∀ P, dest ≠ .lastChildOf P) :
    (∃ r g, Forest.insert s.size dest f1 = .ok r g ∧ ∃ s', Sown f s g s') ∨
      ∃ msg g, Forest.insert s.size dest f1 = .fail (.panic msg) g ∧ ∃ s', Sown f s g s' := by
  have hs := sown_addRoot hm hm1 hd1
  rcases insert_outcomes hm1 s.size dest with ⟨f', h⟩ | (⟨e, h⟩ | ⟨msg, h⟩) | ⟨P, h, _⟩
  · obtain ⟨hx, ha, hne, P, hpp, hcyc⟩ := insert_ok_inv hm1 h
    have hane : dest.place.anchor ≠ s.size := by
      intro e
      cases dest with
      | firstChildOf a => 
        have : a = s.size := e
        subst this
        have : P = s.size := by have := hpp; simpa [InsertAs.place, Shape.placeParent] using this.symm
        exact hcyc (this ▸ .refl)
      | lastChildOf a => exact hl a rfl
      | previousSiblingOf a => 
        have : a = s.size := e
        exact hne.1 (by rw [this])
      | nextSiblingOf a => 
        have : a = s.size := e
        exact hne.2 (by rw [this])
    have ha' : s.alive dest.place.anchor = true := by
      rw [← ha]; simp only [Shape.addRoot, upd]; rw [if_neg hane]
    have hpp' : s.placeParent dest.place = some P := by cases dest <;> exact hpp
    have hm2 : ∀ a, dest.place = .before a ∨ dest.place = .after a → s.size ≠ a := by
      intro a h e
      have : dest.place.anchor = a := by rcases h with h | h <;> rw [h] <;> rfl
      exact hane (this.trans e.symm)
    obtain ⟨g', a1, a2, a3⟩ := forest_insert_models hm1 hx ha hm2 hpp hcyc (not_at_fresh hm.valid ha')
    rw [h] at a1
    cases a1
    refine .inl ⟨_, _, h, _, sown_move (d := d) hm ha' hpp' a2 (fun x => ?_)⟩
    rw [← hd1 x]; unfold Forest.getData; rw [a3]
  · exact .inl ⟨_, _, h, _, hs⟩
  · exact .inr ⟨_, _, h, _, hs⟩
  · exact absurd h (hl P)

theorem addChild_ends {cap : Nat} {b : Nest T} (hm : Models b.forest s) (d : T) :
    Ends b.forest s (Nest.addChild cap d b) := by
  by_cases hcap : s.size < cap
  · obtain ⟨f1, h1, hm1, hd1⟩ := createRoot_models hm hcap d
    have hpl : ∀ c, Ends b.forest s (Nest.place s.size ⟨f1, b.root, c⟩) := by
      intro c
      have hin : ∀ dest : InsertAs, (∀ P, dest ≠ .lastChildOf P) → Ends b.forest s
          ((do
            let r ← Nest.onForest (Forest.insert s.size dest)
            Nest.expectOk r Nest.addMsg : M (Nest T) Unit) ⟨f1, b.root, c⟩) := by
        intro dest hl
        rcases insert_fresh hm hm1 hd1 dest hl with ⟨r, g, h, hs⟩ | ⟨msg, g, h, hs⟩
        · have : Nest.onForest (Forest.insert s.size dest) ⟨f1, b.root, c⟩ = .ok r ⟨g, b.root, c⟩ := Nest.onForest_ok h
          simp only [M.run_bind, this]
          cases r with
          | ok u => exact hs
          | error e => exact ⟨⟨_, rfl⟩, hs⟩
        · have : Nest.onForest (Forest.insert s.size dest) ⟨f1, b.root, c⟩ = .fail (.panic msg) ⟨g, b.root, c⟩ :=
            Nest.onForest_fail h
          simp only [M.run_bind, this]
          exact ⟨⟨_, rfl⟩, hs⟩
      cases c with
      | none => exact hin (.firstChildOf b.root) (by simp)
      | some a => exact hin (.nextSiblingOf a) (by simp)
    unfold Nest.addChild
    simp only [M.run_bind, Nest.onForest_ok h1]
    have := hpl b.current
    cases hr : Nest.place s.size ⟨f1, b.root, b.current⟩ with
    | ok u b' => rw [hr] at this; exact this
    | fail e b' => rw [hr] at this; exact this
  · rw [Nest.addChild_full hm (by omega) d]
    exact ⟨⟨_, rfl⟩, s, Sown.refl hm⟩

namespace WildCall

/-- Both forests have at most grown; the builders may have changed places. -/
def Both (f : Forest T) (s : Shape) (g : Forest T) (s' : Shape) (p : Nest T × Nest T) : Prop :=
  (∃ t t', Sown f s p.1.forest t ∧ Sown g s' p.2.forest t') ∨ (∃ t t', Sown f s p.2.forest t ∧ Sown g s' p.1.forest t')

/-- The call ends, both forests having at most grown. -/
def EndsBoth (f : Forest T) (s : Shape) (g : Forest T) (s' : Shape) : Res (Nest T × Nest T) Unit → Prop
  | .ok _ p => Both f s g s' p
  | .fail e p => (∃ msg, e = .panic msg) ∧ Both f s g s' p

theorem addChild_both {cap : Nat} {p : Nest T × Nest T} (h : Both f s g s' p) (d : T) :
    EndsBoth f s g s' (onSelf (Nest.addChild cap d) p) := by
  have key : ∀ t, Models p.1.forest t → Ends p.1.forest t (Nest.addChild cap d p.1) := fun t hm => addChild_ends hm d
  unfold onSelf M.zoom
  rcases h with ⟨t, t', h1, h2⟩ | ⟨t, t', h1, h2⟩
  · have := key t h1.models
    cases hr : Nest.addChild cap d p.1 with
    | ok u b =>
      rw [hr] at this
      obtain ⟨t2, h3⟩ := this
      exact .inl ⟨t2, t', h1.trans h3, h2⟩
    | fail e b =>
      rw [hr] at this
      obtain ⟨he, t2, h3⟩ := this
      exact ⟨he, .inl ⟨t2, t', h1.trans h3, h2⟩⟩
  · have := key t' h2.models
    cases hr : Nest.addChild cap d p.1 with
    | ok u b =>
      rw [hr] at this
      obtain ⟨t2, h3⟩ := this
      exact .inr ⟨t, t2, h1, h2.trans h3⟩
    | fail e b =>
      rw [hr] at this
      obtain ⟨he, t2, h3⟩ := this
      exact ⟨he, .inr ⟨t, t2, h1, h2.trans h3⟩⟩

theorem Both.set {p : Nest T × Nest T} (h : Both f s g s' p) (r : Nat) (c : Option Nat) :
    Both f s g s' (⟨p.1.forest, r, c⟩, p.2) := h

theorem onSelf_run {α : Type} (m : M (Nest T) α) (p : Nest T × Nest T) : onSelf m p = match m p.1 with
    | .ok a b => .ok a (b, p.2)
    | .fail e b => .fail e (b, p.2) := by
  unfold onSelf M.zoom
  cases m p.1 <;> rfl

theorem createTreeOf_run (cap : Nat) (d : T) (m : M (Nest T × Nest T) Unit) (p : Nest T × Nest T) :
    createTreeOf cap d m p = match Nest.addChild cap d p.1 with
      | .fail e b => .fail e (b, p.2)
      | .ok () b => match b.current with
        | none => .fail (.panic "[consistency] `add_child` makes `current` `Some`") (b, p.2)
        | some n => match m (⟨b.forest, n, none⟩, p.2) with
          | .fail e q => .fail e q
          | .ok () q => .ok () (⟨q.1.forest, b.root, some n⟩, q.2) := by
  unfold createTreeOf
  simp only [M.run_bind, onSelf_run]
  cases Nest.addChild cap d p.1 with
  | fail e b => rfl
  | ok u b =>
    simp only [M.read]
    cases hc : b.current with
    | none => simp only [expect_none]
    | some n =>
      simp only [expect_some, M.run_modify]
      cases m (⟨b.forest, n, none⟩, p.2) with
      | ok u q => rfl
      | fail e q => rfl

mutual
theorem exec_ends (cap : Nat) : ∀ (c : WildCall T) (p : Nest T × Nest T), Both f s g s' p → EndsBoth f s g s' (exec cap c p)
  | .addChild d, p, h => by rw [exec]; exact addChild_both h d
  | .boom, p, h => by rw [exec]; exact ⟨⟨_, rfl⟩, h⟩
  | .swap, p, h => by rw [exec]; exact h.elim .inr .inl
  | .caught cs, p, h => by
    have := execL_ends cap cs p h
    rw [exec, rescue]
    cases hr : execL cap cs p with
    | ok u q => rw [hr] at this; exact this
    | fail e q =>
      rw [hr] at this
      obtain ⟨⟨msg, rfl⟩, h2⟩ := this
      exact h2
  | .createTree d cs, p, h => by
    rw [exec, createTreeOf_run]
    have h1 := addChild_both (cap := cap) h d
    unfold onSelf M.zoom at h1
    cases hr : Nest.addChild cap d p.1 with
    | fail e b => rw [hr] at h1; exact h1
    | ok u b =>
      rw [hr] at h1
      have h1 : Both f s g s' (b, p.2) := h1
      simp only
      cases hc : b.current with
      | none => exact ⟨⟨_, rfl⟩, h1⟩
      | some n =>
        simp only
        have h2 := execL_ends cap cs (⟨b.forest, n, none⟩, p.2) (h1.set n none)
        cases hr2 : execL cap cs (⟨b.forest, n, none⟩, p.2) with
        | fail e q => rw [hr2] at h2; exact h2
        | ok u q => rw [hr2] at h2; exact h2
theorem execL_ends (cap : Nat) : ∀ (cs : List (WildCall T)) (p : Nest T × Nest T), Both f s g s' p →
    EndsBoth f s g s' (execL cap cs p)
  | [], p, h => by rw [execL]; exact h
  | c :: cs, p, h => by
    have h1 := exec_ends cap c p h
    rw [execL]
    simp only [M.run_bind]
    cases hr : exec cap c p with
    | fail e q => rw [hr] at h1; exact h1
    | ok u q => rw [hr] at h1; exact execL_ends cap cs q h1
end

/-! ### Without exchange -/

/-- A builder between two calls: the next child goes to the end of the children of `b.root`. -/
structure Settled (b : Nest T) (s : Shape) : Prop where
  models : Models b.forest s
  alive : s.alive b.root = true
  current : b.current = (s.kids b.root).getLast?

/-- The nodes below `lo` have the same children and are as alive as before. -/
structure Keep (lo : Nat) (s s' : Shape) : Prop where
  size : s.size ≤ s'.size
  alive : ∀ x, x < s.size → s'.alive x = s.alive x
  kids : ∀ x, x < lo → s'.kids x = s.kids x

theorem Keep.trans {lo : Nat} {s s' s'' : Shape} (h1 : Keep lo s s') (h2 : Keep lo s' s'') : Keep lo s s'' :=
  ⟨h1.size.trans h2.size, fun x hx => (h2.alive x (Nat.lt_of_lt_of_le hx h1.size)).trans (h1.alive x hx),
    fun x hx => (h2.kids x hx).trans (h1.kids x hx)⟩

theorem addChild_settled {cap : Nat} {b : Nest T} (hb : Settled b s) (hcap : s.size < cap) (d : T) :
    ∃ g', Nest.addChild cap d b = .ok () ⟨g', b.root, some s.size⟩ ∧ Models g' (s.addChild' b.root) ∧
      Forest.createInsert cap d (.lastChildOf b.root) b.forest = .ok s.size g' := by
  have hg : Grown (Forest.new : Forest T) ⟨0, fun _ => false, fun _ => none, fun _ => []⟩ b.forest s :=
    ⟨hb.models, Nat.zero_le _, fun x hx => absurd hx (Nat.not_lt_zero x), fun x hx => absurd hx (Nat.not_lt_zero x),
      fun x hx => absurd hx (Nat.not_lt_zero x), fun x hx => absurd hx (Nat.not_lt_zero x)⟩
  obtain ⟨g', h1, h2, h3⟩ := Nest.addChild_spec hg (Nat.zero_le _) hb.alive hb.current hcap d
  obtain ⟨g2, k1, k2, k3⟩ := createInsert_models hb.models hcap d (dest := .lastChildOf b.root) (P := b.root) hb.alive rfl
  have k2 : Models g2 (s.addChild' b.root) := by
    have := addLast_eq hb.models.valid b.root
    rw [← this]; exact k2
  have : g' = g2 := by
    refine forest_ext h2.models k2 fun y => ?_
    rw [k3 y]
    have hlen := hb.models.dataLen
    unfold Forest.getData
    rw [h3]
    by_cases hy : y = s.size
    · subst hy; rw [if_pos rfl, ← hlen]; simp
    · rw [if_neg hy]
      by_cases hy2 : y < s.size
      · rw [List.getElem?_append_left (by omega)]
      · rw [List.getElem?_append_right (by omega), List.getElem?_eq_none (l := b.forest.data) (by omega),
          List.getElem?_eq_none (by simp; omega)]
  subst this
  exact ⟨g', h1, h2.models, k1⟩

/-- The outcome of calls on a settled builder is what the log says. -/
def Obeys (cap lo : Nat) (b c : Nest T) (s : Shape) (l : Log T) (r : Res (Nest T × Nest T) Unit) : Prop :=
  ∃ b' s', Settled b' s' ∧ Keep lo s s' ∧ lo ≤ b'.root ∧ b'.root = l.pen ∧ s'.size = l.next ∧
    plant cap l.made b.forest = .ok () b'.forest ∧
    r = match l.panic with
      | none => .ok () (b', c)
      | some e => .fail e (b', c)

theorem plant_append {cap : Nat} : ∀ (l l' : List (Nat × T)) {f g h : Forest T}, plant cap l f = .ok () g →
    plant cap l' g = .ok () h → plant cap (l ++ l') f = .ok () h
  | [], l', f, g, h, h1, h2 => by cases h1; exact h2
  | (p, d) :: l, l', f, g, h, h1, h2 => by
    rw [plant] at h1
    rw [List.cons_append, plant]
    simp only [M.run_bind] at h1 ⊢
    cases hr : Forest.createInsert cap d (.lastChildOf p) f with
    | fail e f' => rw [hr] at h1; cases h1
    | ok n f' =>
      rw [hr] at h1
      exact plant_append l l' h1 h2

theorem keep_addChild {lo p : Nat} {s : Shape} (h : lo ≤ p) : Keep lo s (s.addChild' p) := by
  refine ⟨Nat.le_succ _, fun x hx => ?_, fun x hx => ?_⟩
  · simp only [Shape.addChild', upd]; rw [if_neg (by omega)]
  · simp only [Shape.addChild', upd]; rw [if_neg (by omega)]

mutual
theorem log_panics (cap : Nat) : ∀ (c : WildCall T) (p n : Nat) (e : Fail), (c.log cap p n).panic = some e →
    ∃ msg, e = .panic msg
  | .addChild d, p, n, e, h => by
    rw [log] at h
    split at h <;> cases h
    exact ⟨_, rfl⟩
  | .createTree d cs, p, n, e, h => by
    rw [log] at h
    split at h
    · exact logL_panics cap cs _ _ e h
    · cases h; exact ⟨_, rfl⟩
  | .boom, p, n, e, h => by rw [log] at h; cases h; exact ⟨_, rfl⟩
  | .caught cs, p, n, e, h => by rw [log] at h; cases h
  | .swap, p, n, e, h => by rw [log] at h; cases h
theorem logL_panics (cap : Nat) : ∀ (cs : List (WildCall T)) (p n : Nat) (e : Fail), (logL cap p n cs).panic = some e →
    ∃ msg, e = .panic msg
  | [], p, n, e, h => by rw [logL] at h; cases h
  | c :: cs, p, n, e, h => by
    rw [logL] at h
    dsimp only at h
    split at h
    · exact logL_panics cap cs _ _ e h
    · exact log_panics cap c _ _ e h
end

mutual
theorem exec_obeys {cap : Nat} : ∀ (c : WildCall T) {lo : Nat} {b : Nest T} {s : Shape} (o : Nest T), c.steady = true → Settled b s →
    lo ≤ b.root → Obeys cap lo b o s (c.log cap b.root s.size) (exec cap c (b, o))
  | .addChild d, lo, b, s, o, hst, hb, hlo => by
    rw [log, exec, onSelf_run]
    by_cases hcap : s.size < cap
    · obtain ⟨g', h1, h2, h3⟩ := addChild_settled hb hcap d
      rw [if_pos hcap]
      have hbk := hb.models.valid.alive_lt _ hb.alive
      refine ⟨⟨g', b.root, some s.size⟩, _, ⟨h2, ?_, ?_⟩, keep_addChild hlo, hlo, rfl, rfl, ?_, ?_⟩
      · simp only [Shape.addChild', upd]; rw [if_neg (by omega)]; exact hb.alive
      · simp [Shape.addChild', upd]
      · simp only [plant, M.run_bind, h3]; rfl
      · simp only [h1]
    · rw [if_neg hcap]
      refine ⟨b, s, hb, ⟨Nat.le_refl _, fun _ _ => rfl, fun _ _ => rfl⟩, hlo, rfl, rfl, rfl, ?_⟩
      simp only [Nest.addChild_full hb.models (by omega : cap ≤ s.size) d]
  | .boom, lo, b, s, o, hst, hb, hlo => by
    rw [log, exec]
    exact ⟨b, s, hb, ⟨Nat.le_refl _, fun _ _ => rfl, fun _ _ => rfl⟩, hlo, rfl, rfl, rfl, rfl⟩
  | .swap, lo, b, s, o, hst, hb, hlo => by simp [steady] at hst
  | .caught cs, lo, b, s, o, hst, hb, hlo => by
    rw [log, exec, rescue]
    obtain ⟨b', s', k1, k2, k3, k4, k5, k6, k7⟩ := execL_obeys (cap := cap) cs o (by simpa [steady] using hst) hb hlo
    refine ⟨b', s', k1, k2, k3, k4, k5, k6, ?_⟩
    rw [k7]
    cases hp : (logL cap b.root s.size cs).panic with
    | none => rfl
    | some e =>
      obtain ⟨msg, rfl⟩ := logL_panics cap cs _ _ e hp
      rfl
  | .createTree d cs, lo, b, s, o, hst, hb, hlo => by
    rw [log, exec, createTreeOf_run]
    by_cases hcap : s.size < cap
    · obtain ⟨g', h1, h2, h3⟩ := addChild_settled hb hcap d
      rw [if_pos hcap]
      simp only [h1]
      have hbk := hb.models.valid.alive_lt _ hb.alive
      have hkn : (s.addChild' b.root).kids s.size = [] := by
        simp only [Shape.addChild', upd]; rw [if_neg (by omega)]
        exact hb.models.valid.fresh _ (Nat.le_refl _)
      have hset : Settled (⟨g', s.size, none⟩ : Nest T) (s.addChild' b.root) :=
        ⟨h2, by simp [Shape.addChild', upd], by simp only [hkn]; rfl⟩
      obtain ⟨b', s', k1, k2, k3, k4, k5, k6, k7⟩ := execL_obeys (cap := cap) cs (lo := s.size) o
        (by simpa [steady] using hst) hset (Nat.le_refl _)
      have hsz : (s.addChild' b.root).size = s.size + 1 := rfl
      rw [hsz] at k4 k5 k6 k7
      simp only at k4 k5 k6 k7
      have hk2 : Keep lo s s' := (keep_addChild hlo).trans ⟨k2.size, k2.alive, fun x hx => k2.kids x (by omega)⟩
      have hpl : plant cap ((b.root, d) :: (logL cap s.size (s.size + 1) cs).made) b.forest = .ok () b'.forest := by
        rw [plant]
        simp only [M.run_bind, h3]
        exact k6
      rw [k7]
      cases hp : (logL cap s.size (s.size + 1) cs).panic with
      | none =>
        refine ⟨⟨b'.forest, b.root, some s.size⟩, s', ⟨k1.models, ?_, ?_⟩, hk2, hlo, by simp [hp], k5, hpl, ?_⟩
        · rw [k2.alive _ (by rw [hsz]; simp only; omega)]
          simp only [Shape.addChild', upd]; rw [if_neg (by omega)]; exact hb.alive
        · simp only
          rw [k2.kids _ (by omega)]
          simp [Shape.addChild', upd]
        · simp only [hp]
      | some e =>
        refine ⟨b', s', k1, hk2, by omega, by simp [hp, k4], k5, hpl, ?_⟩
        simp only [hp]
    · rw [if_neg hcap]
      refine ⟨b, s, hb, ⟨Nat.le_refl _, fun _ _ => rfl, fun _ _ => rfl⟩, hlo, rfl, rfl, rfl, ?_⟩
      simp only [Nest.addChild_full hb.models (by omega : cap ≤ s.size) d]
theorem execL_obeys {cap : Nat} : ∀ (cs : List (WildCall T)) {lo : Nat} {b : Nest T} {s : Shape} (o : Nest T), steadyL cs = true →
    Settled b s → lo ≤ b.root → Obeys cap lo b o s (logL cap b.root s.size cs) (execL cap cs (b, o))
  | [], lo, b, s, o, hst, hb, hlo => by
    rw [logL, execL]
    exact ⟨b, s, hb, ⟨Nat.le_refl _, fun _ _ => rfl, fun _ _ => rfl⟩, hlo, rfl, rfl, rfl, rfl⟩
  | c :: cs, lo, b, s, o, hst, hb, hlo => by
    rw [steadyL, Bool.and_eq_true] at hst
    obtain ⟨b', s', k1, k2, k3, k4, k5, k6, k7⟩ := exec_obeys (cap := cap) c o hst.1 hb hlo
    rw [logL, execL]
    simp only [M.run_bind, k7]
    cases hp : (c.log cap b.root s.size).panic with
    | some e =>
      simp only [Option.isNone_some, Bool.false_eq_true, if_false]
      exact ⟨b', s', k1, k2, k3, k4, k5, k6, by rw [hp]⟩
    | none =>
      simp only [Option.isNone_none, if_true]
      obtain ⟨b2, s2, j1, j2, j3, j4, j5, j6, j7⟩ := execL_obeys (cap := cap) cs o hst.2 k1 k3
      rw [k4, k5] at j4 j5 j6 j7
      exact ⟨b2, s2, j1, k2.trans j2, j3, j4, j5, plant_append _ _ k6 j6, j7⟩
end

end WildCall
end Treena
