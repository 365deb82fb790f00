import Verif.Props.Local
import Verif.Props.SampleRun
/-!
# C70: calls on separate parts of a forest commute
-/
set_option autoImplicit false

namespace Treena
variable {T : Type} {cap um : Nat} {f : Forest T}

theorem SameIn.symm {Q : Nat → Prop} {f g : Forest T} (h : SameIn cap Q f g) : SameIn cap Q g f :=
  ⟨h.size.symm, h.dataSize.symm, fun x hx => (h.links x hx).symm, fun x hx => (h.data x hx).symm,
   fun x hx nb hn y hy => h.separate.closed x hx nb (by rw [h.links x hx]; exact hn) y hy,
   fun x hx hc => h.separate.fresh x (by rw [h.size, h.dataSize]; exact hx) hc⟩

/-- A local computation on a forest that is given the IDs `ids`. -/
def LocalAct {α : Type} (cap : Nat) (act : Forest T → Forest T × α) (ids : List Nat) : Prop :=
  ∀ (Q : Nat → Prop) (f g : Forest T), SameIn cap Q f g → (∀ x ∈ ids, Q x) →
    (act f).2 = (act g).2 ∧ SameIn cap Q (act f).1 (act g).1 ∧ SameOut cap Q f (act f).1

theorem LocalAct.frame {α : Type} {a : Forest T → Forest T × α} {ids : List Nat} (ha : LocalAct cap a ids)
    (hl : f.data.length = f.hier.nbrs.length) (hc : f.issued ≤ cap) {y : Nat} (hy : y < f.issued) (hn : ∀ x ∈ ids, ¬ LinkPath f x y) :
    (a f).1.hier.nbrs[y]? = f.hier.nbrs[y]? ∧ (a f).1.data[y]? = f.data[y]? := by
  obtain ⟨_, _, h⟩ := ha _ f f (sameIn_refl (reach_separate (cap := cap) hl ids)) fun x hx => .inl ⟨x, hx, .refl⟩
  have hq : ¬ ((∃ x ∈ ids, LinkPath f x y) ∨ f.issued ≤ y) := by
    rintro (⟨x, hx, h⟩ | h)
    · exact hn x hx h
    · omega
  exact ⟨h.links y hq, h.data y hq (by omega)⟩

theorem LocalAct.same {α : Type} {a : Forest T → Forest T × α} {ids : List Nat} (ha : LocalAct cap a ids)
    (hl : f.data.length = f.hier.nbrs.length) (hc : f.issued ≤ cap)
    (hs : (a f).1.hier.nbrs.length = f.hier.nbrs.length ∧ (a f).1.data.length = f.data.length) (ids' : List Nat)
    (hd : ∀ x ∈ ids, ∀ x' ∈ ids', ∀ y, LinkPath f x y → LinkPath f x' y → False) :
    SameIn cap (fun y => (∃ x ∈ ids', LinkPath f x y) ∨ f.issued ≤ y) f (a f).1 := by
  have key : ∀ y, (∃ x ∈ ids', LinkPath f x y) ∨ f.issued ≤ y →
      f.hier.nbrs[y]? = (a f).1.hier.nbrs[y]? ∧ f.data[y]? = (a f).1.data[y]? := by
    intro y hy
    by_cases h : y < f.issued
    · rcases hy with ⟨x', hx', hp⟩ | hy
      · obtain ⟨h1, h2⟩ := ha.frame hl hc h fun x hx hp' => hd x hx x' hx' y hp' hp
        exact ⟨h1.symm, h2.symm⟩
      · omega
    · unfold Forest.issued at h
      rw [List.getElem?_eq_none (by omega), List.getElem?_eq_none (by omega), List.getElem?_eq_none (by omega),
        List.getElem?_eq_none (by omega)]
      exact ⟨rfl, rfl⟩
  exact ⟨hs.1.symm, hs.2.symm, fun x hx => by unfold Hier.neighbors; rw [(key x hx).1],
    fun x hx => by unfold Forest.getData; rw [(key x hx).2], reach_separate hl ids'⟩

theorem LocalAct.commute {α β : Type} {a : Forest T → Forest T × α} {b : Forest T → Forest T × β} {ids ids' : List Nat}
    (ha : LocalAct cap a ids) (hb : LocalAct cap b ids') (hl : f.data.length = f.hier.nbrs.length) (hc : f.issued ≤ cap)
    (hd : ∀ x ∈ ids, ∀ x' ∈ ids', ∀ y, LinkPath f x y → LinkPath f x' y → False)
    (hsa : (a f).1.hier.nbrs.length = f.hier.nbrs.length ∧ (a f).1.data.length = f.data.length)
    (hsb : (b f).1.hier.nbrs.length = f.hier.nbrs.length ∧ (b f).1.data.length = f.data.length) :
    (a (b f).1).2 = (a f).2 ∧ (b (a f).1).2 = (b f).2 ∧ SameIn cap (fun _ => True) (b (a f).1).1 (a (b f).1).1 := by
  have sb := ha.same hl hc hsa ids' hd
  have sa := hb.same hl hc hsb ids fun x hx x' hx' y h1 h2 => hd x' hx' x hx y h2 h1
  obtain ⟨a1, a2, a3⟩ := ha _ f (b f).1 sa fun x hx => .inl ⟨x, hx, .refl⟩
  obtain ⟨b1, b2, b3⟩ := hb _ f (a f).1 sb fun x hx => .inl ⟨x, hx, .refl⟩
  obtain ⟨_, _, a4⟩ := ha _ (b f).1 f sa.symm fun x hx => .inl ⟨x, hx, .refl⟩
  obtain ⟨_, _, b4⟩ := hb _ (a f).1 f sb.symm fun x hx => .inl ⟨x, hx, .refl⟩
  have l1 := a2.size
  have l2 := a2.dataSize
  have l3 := b2.size
  have l4 := b2.dataSize
  have key : ∀ y, (b (a f).1).1.hier.neighbors y = (a (b f).1).1.hier.neighbors y ∧
      (b (a f).1).1.getData y = (a (b f).1).1.getData y := by
    intro y
    by_cases hy : y < f.issued
    · have hyc : y < cap := by omega
      by_cases h1 : ∃ x ∈ ids, LinkPath f x y
      · have h2 : ¬ ((∃ x ∈ ids', LinkPath f x y) ∨ f.issued ≤ y) := by
          rintro (⟨x', hx', h'⟩ | h')
          · obtain ⟨x, hx, h⟩ := h1; exact hd x hx x' hx' y h h'
          · omega
        refine ⟨?_, ?_⟩
        · rw [← a2.links y (.inl h1)]
          unfold Hier.neighbors; rw [b4.links y h2]
        · rw [← a2.data y (.inl h1)]
          unfold Forest.getData; rw [b4.data y h2 hyc]
      · have h1' : ¬ ((∃ x ∈ ids, LinkPath f x y) ∨ f.issued ≤ y) := by
          rintro (h' | h')
          · exact h1 h'
          · omega
        by_cases h2 : ∃ x ∈ ids', LinkPath f x y
        · refine ⟨?_, ?_⟩
          · rw [← b2.links y (.inl h2)]
            unfold Hier.neighbors; rw [a4.links y h1']
          · rw [← b2.data y (.inl h2)]
            unfold Forest.getData; rw [a4.data y h1' hyc]
        · have h2' : ¬ ((∃ x ∈ ids', LinkPath f x y) ∨ f.issued ≤ y) := by
            rintro (h' | h')
            · exact h2 h'
            · omega
          refine ⟨?_, ?_⟩
          · unfold Hier.neighbors; rw [b4.links y h2', a3.links y h1', a4.links y h1', b3.links y h2']
          · unfold Forest.getData; rw [b4.data y h2' hyc, a3.data y h1' hyc, a4.data y h1' hyc, b3.data y h2' hyc]
    · unfold Forest.issued at hy
      unfold Hier.neighbors Forest.getData
      rw [List.getElem?_eq_none (by omega), List.getElem?_eq_none (by omega), List.getElem?_eq_none (by omega),
        List.getElem?_eq_none (by omega)]
      exact ⟨rfl, rfl⟩
  exact ⟨a1.symm, b1.symm, by omega, by omega, fun x _ => (key x).1, fun x _ => (key x).2, fun _ _ _ _ _ _ => trivial,
    fun _ _ _ => trivial⟩

theorem Req.localAct (cap um : Nat) (q : Req T) : LocalAct cap (q.exec cap um) q.ids :=
  fun _ _ _ h hq => Req.exec_local cap um h q hq

theorem Op.localAct (cap : Nat) (op : Op T) : LocalAct cap (fun f => (op.step cap f, op.newId cap f)) op.ids :=
  fun _ _ _ h hq => Op.step_local cap h op hq

/-- **C70**.  In any forest, even a destroyed one, two calls that make no nodes and reach no common node through links
commute: each is answered the same whether it comes first or second, and the two orders leave forests that agree
everywhere (so that, by C68, no later call tells them apart). -/
theorem C70_separate_calls_commute (hl : f.data.length = f.hier.nbrs.length) (hc : f.issued ≤ cap) (q r : Req T)
    (hd : ∀ x ∈ q.ids, ∀ x' ∈ r.ids, ∀ y, LinkPath f x y → LinkPath f x' y → False)
    (hq : (q.exec cap um f).1.hier.nbrs.length = f.hier.nbrs.length ∧ (q.exec cap um f).1.data.length = f.data.length)
    (hr : (r.exec cap um f).1.hier.nbrs.length = f.hier.nbrs.length ∧ (r.exec cap um f).1.data.length = f.data.length) :
    (q.exec cap um (r.exec cap um f).1).2 = (q.exec cap um f).2 ∧ (r.exec cap um (q.exec cap um f).1).2 = (r.exec cap um f).2 ∧
      SameIn cap (fun _ => True) (r.exec cap um (q.exec cap um f).1).1 (q.exec cap um (r.exec cap um f).1).1 :=
  (Req.localAct cap um q).commute (Req.localAct cap um r) hl hc hd hq hr

/-- The same after any history, for the mutating calls with arbitrary hooks. -/
theorem C70_separate_mutations_commute (hf : Reachable cap f) (op op' : Op T)
    (hd : ∀ x ∈ op.ids, ∀ x' ∈ op'.ids, ∀ y, LinkPath f x y → LinkPath f x' y → False)
    (h1 : (op.step cap f).issued = f.issued) (h2 : (op'.step cap f).issued = f.issued) :
    SameIn cap (fun _ => True) (op'.step cap (op.step cap f)) (op.step cap (op'.step cap f)) := by
  have hc := hf.coherent
  have hsz : ∀ o : Op T, (o.step cap f).issued = f.issued →
      (o.step cap f).hier.nbrs.length = f.hier.nbrs.length ∧ (o.step cap f).data.length = f.data.length := fun o h => by
    have := (step_later (cap := cap) hc o).1.len
    have := hc.len
    unfold Forest.issued at h
    exact ⟨by omega, h⟩
  exact ((Op.localAct cap op).commute (Op.localAct cap op') hc.len (C52_within_capacity hf).1 hd (hsz op h1) (hsz op' h2)).2.2

/-- **C70**, consistent forests: calls that make no nodes and are given nodes of different trees, none of them harmful,
give the very same forest in either order. -/
theorem C70_different_trees_commute (hc : Consistent f) (hl : f.issued ≤ cap) (op op' : Op T)
    (hd : ∀ x ∈ op.ids, ∀ x' ∈ op'.ids, ¬ Connected f x x')
    (hh : ¬ op.Harmful f) (hh' : ¬ op'.Harmful f)
    (h1 : (op.step cap f).issued = f.issued) (h2 : (op'.step cap f).issued = f.issued) :
    op'.step cap (op.step cap f) = op.step cap (op'.step cap f) := by
  obtain ⟨s, hm⟩ := hc
  have hco : Coherent f := ⟨by rw [hm.dataLen, hm.repr.1], fun x => by rw [hm.isAlive, hm.hierAlive]⟩
  have hpar : ∀ x p, s.parent x = some p → f.parentId x = .ok (some p) := fun x p h => by
    rw [hm.describes.parent x (hm.valid.parent_alive x p h).1, h]
  have hrel : ∀ z x, LinkPath f z x → Connected f z x := fun z x h => by
    induction h with
    | refl => exact .refl
    | @step u w nb _ hn hw ih =>
      rw [models_neighbors hm] at hn
      cases e : s.alive u with
      | false => rw [e] at hn; cases hn
      | true =>
        rw [e] at hn; cases hn
        rcases Shape.mentions_rel hm.valid hw with rfl | h | h | ⟨p, h1, h2⟩
        · exact ih
        · exact .up ih (hpar _ _ h)
        · exact .down ih (hpar _ _ h)
        · exact .down (.up ih (hpar _ _ h1)) (hpar _ _ h2)
  have htr : ∀ {a b c : Nat}, Connected f a b → Connected f b c → Connected f a c := fun h1 h2 => by
    induction h2 with
    | refl => exact h1
    | up _ hp ih => exact .up ih hp
    | down _ hp ih => exact .down ih hp
  have hsy : ∀ {a b : Nat}, Connected f a b → Connected f b a := fun h => by
    induction h with
    | refl => exact .refl
    | up _ hp ih => exact htr (.down .refl hp) ih
    | down _ hp ih => exact htr (.up .refl hp) ih
  have hd' : ∀ x ∈ op.ids, ∀ x' ∈ op'.ids, ∀ y, LinkPath f x y → LinkPath f x' y → False := fun x hx x' hx' y h1 h2 =>
    hd x hx x' hx' (htr (hrel x y h1) (hsy (hrel x' y h2)))
  have hsz : ∀ o : Op T, (o.step cap f).issued = f.issued →
      (o.step cap f).hier.nbrs.length = f.hier.nbrs.length ∧ (o.step cap f).data.length = f.data.length := fun o h => by
    have := (step_later (cap := cap) hco o).1.len
    have := hco.len
    unfold Forest.issued at h
    exact ⟨by omega, h⟩
  have hcs : ∀ (g : Forest T) (o : Op T), Consistent g → ¬ o.Harmful g → Consistent (o.step cap g) := fun g o hg h => by
    obtain ⟨sg, hmg⟩ := hg
    rcases step_cases (cap := cap) hmg o with h' | h'
    · exact h'.1
    · exact absurd h'.2 h
  have sb := (Op.localAct cap op).same hco.len hl (hsz op h1) op'.ids hd'
  have sa := (Op.localAct cap op').same hco.len hl (hsz op' h2) op.ids fun x hx x' hx' y h1 h2 => hd' x' hx' x hx y h2 h1
  have c1 : Consistent (op'.step cap (op.step cap f)) := hcs _ _ (hcs _ _ ⟨s, hm⟩ hh)
    fun h => hh' ((harmful_local sb op' fun x hx => .inl ⟨x, hx, .refl⟩).2 h)
  have c2 : Consistent (op.step cap (op'.step cap f)) := hcs _ _ (hcs _ _ ⟨s, hm⟩ hh')
    fun h => hh ((harmful_local sa op fun x hx => .inl ⟨x, hx, .refl⟩).2 h)
  have hs := ((Op.localAct cap op).commute (Op.localAct cap op') hco.len hl hd' (hsz op h1) (hsz op' h2)).2.2
  obtain ⟨t1, m1⟩ := c1
  obtain ⟨t2, m2⟩ := c2
  refine models_ext m2 hs.size hs.dataSize (fun x => hs.links x trivial) (fun x => hs.data x trivial) fun x hx hn => ?_
  rw [m1.repr.1] at hx
  rw [m1.repr.2 x hx, Shape.entry_dead]
  rw [models_neighbors m1] at hn
  cases e : t1.alive x with
  | false => rfl
  | true => rw [e] at hn; cases hn

/-- Detaching `3` and removing `1` in the forest of `besideHistory` before it is destroyed. -/
example : Op.step 100 (Op.step 100 (Op.run 100 Forest.new (besideHistory.take 5)) (.detach 3)) (.remove 1) =
    Op.step 100 (Op.step 100 (Op.run 100 Forest.new (besideHistory.take 5)) (.remove 1)) (.detach 3) := by
  have hcare : Careful 100 (Forest.new : Forest Nat) (besideHistory.take 5) := by simp [Careful, Op.Harmful, besideHistory]
  have hc := run_careful (cap := 100) _ (Forest.new : Forest Nat) new_consistent hcare
  refine C70_different_trees_commute hc (by decide) (.detach 3) (.remove 1) ?_ (by simp [Op.Harmful]) (by simp [Op.Harmful])
    (by decide) (by decide)
  intro x hx x' hx' h
  simp only [Op.ids, List.mem_singleton] at hx hx'
  subst hx; subst hx'
  have : ∀ z, Connected (Op.run 100 Forest.new (besideHistory.take 5)) 3 z → z = 2 ∨ z = 3 ∨ z = 4 := fun z hz => by
    induction hz with
    | refl => simp
    | @up u p _ hp ih => rcases beside_parents _ _ hp with ⟨rfl, rfl⟩ | ⟨rfl, rfl⟩ | ⟨rfl, rfl⟩ <;> simp_all
    | @down u p _ hp ih => rcases beside_parents _ _ hp with ⟨rfl, rfl⟩ | ⟨rfl, rfl⟩ | ⟨rfl, rfl⟩ <;> simp_all
  have := this 1 h
  omega

/-! ### The hypotheses can be met

Each example applies the theorem named in its comment to a concrete forest. -/

section
/-- `C70_separate_mutations_commute`: detaching node 2 and writing to node 6. -/
example := C70_separate_mutations_commute Sample.reachable (.detach 2) (.setData 6 99)
  (fun x hx x' hx' y h h' => by
    simp only [Op.ids, List.mem_singleton] at hx hx'
    exact Sample.no_path h' h hx' (by omega)) (by decide) (by decide)

/-- `C70_separate_calls_commute`: removing node 2 and traversing from node 6. -/
example := C70_separate_calls_commute (cap := 100) (um := 255) (f := Sample.built) (by decide) (by decide) (.remove 2 none) (.dft 6 [.front, .back])
  (fun x hx x' hx' y h h' => by
    simp only [Req.ids, List.mem_singleton] at hx hx'
    exact Sample.no_path h' h hx' (by omega)) (by decide) (by decide)

end

end Treena
