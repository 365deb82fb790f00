import Verif.Proof.LocalIter
import Verif.Proof.Consist
import Verif.Proof.Dead
import Verif.Props.IdType
import Verif.Props.Remove
import Verif.Props.Census
/-! Containment: what happens beside trees that have been destroyed. -/
set_option autoImplicit false
namespace Treena
variable {T : Type} {cap : Nat} {f : Forest T} {B : Nat → Prop}

theorem dead_of_ge {x : Nat} (h : f.issued ≤ x) : f.isAlive x = false := by
  unfold Forest.isAlive; rw [List.getElem?_eq_none h]

theorem Coherent.neighbors_dead (hc : Coherent f) {x : Nat} (h : f.isAlive x = false) : f.hier.neighbors x = none := by
  refine Hier.neighbors_dead fun hl => ?_
  have := hc.live x
  rw [h, Hier.isAlive_eq] at this
  unfold Hier.live at hl
  rw [hl] at this; cases this

theorem Coherent.neighbors_live (hc : Coherent f) {x : Nat} (h : f.isAlive x = true) : f.hier.neighbors x = some (f.hier.get x) := by
  refine Hier.neighbors_live ?_
  have := hc.live x
  rw [h, Hier.isAlive_eq] at this
  exact this.symm

theorem Coherent.alive_of (hc : Coherent f) {x : Nat} {nb : Neighbors} (h : f.hier.neighbors x = some nb) : f.isAlive x = true := by
  cases e : f.isAlive x with
  | true => rfl
  | false => rw [hc.neighbors_dead e] at h; cases h

theorem getData_dead {x : Nat} (h : f.isAlive x = false) : f.getData x = none := by
  unfold Forest.isAlive at h; unfold Forest.getData
  cases e : f.data[x]? with
  | none => rfl
  | some o => rw [e] at h; cases o with
    | none => rfl
    | some d => cases h

/-! ### Calls with IDs that have not been handed out -/

theorem bogus_call (hc : Coherent f) (op : Op T) {x : Nat} (hx : x ∈ op.ids) (hb : f.issued ≤ x) : op.step cap f = f := by
  have hd := dead_of_ge hb
  have hlen : f.hier.nbrs.length ≤ x := by unfold Forest.issued at hb; rw [hc.len] at hb; exact hb
  have hl : ¬ f.hier.live x := fun hl => by have := Hier.live_lt hl; omega
  have hon : ∀ {α : Type} {m : M Hier α}, (m f.hier).state = f.hier → (Forest.onHier m f).state = f := fun {α m} h => by
    unfold Forest.onHier M.zoom
    cases e : m f.hier with
    | ok a t => rw [e] at h; simp only [Res.state] at h ⊢; rw [h]
    | fail a t => rw [e] at h; simp only [Res.state] at h ⊢; rw [h]
  have hins : ∀ (y : Nat) (dest : InsertAs), x = y ∨ x = dest.toAnchor → (Forest.insert y dest f).state = f := fun y dest h => by
    refine hon ?_
    by_cases hu : dest ≠ .previousSiblingOf y ∧ dest ≠ .nextSiblingOf y
    · obtain ⟨m, e⟩ := Hier.insert_dead (h := f.hier) (x := y) (d := dest) (by
        rcases h with h | h
        · exact .inl (h ▸ hl)
        · exact .inr (h ▸ hl)) hu
      rw [e]; rfl
    · have : dest = .previousSiblingOf y ∨ dest = .nextSiblingOf y := by
        by_cases h1 : dest = .previousSiblingOf y
        · exact .inl h1
        · exact .inr (Classical.byContradiction fun h2 => hu ⟨h1, h2⟩)
      rcases this with rfl | rfl
      · simp only [Hier.insert, Hier.insertBefore, if_true]; rfl
      · simp only [Hier.insert, Hier.insertAfter, if_true]; rfl
  have hanc : ∀ dest : InsertAs, dest.place.anchor = dest.toAnchor := fun dest => by cases dest <;> rfl
  have hcre : ∀ (d : T) (dest : InsertAs), x = dest.toAnchor → (Forest.createInsert cap d dest f).state = f := fun d dest h => by
    have : f.hier.isValid dest.toAnchor = false := by
      rw [← h]; unfold Hier.isValid; simp; omega
    unfold Forest.createInsert Forest.createInsertMomo
    simp only [M.run_bind, M.read, this]; rfl
  cases op with
  | createRoot d => simp [Op.ids] at hx
  | createInsert d dest => exact hcre d dest (by simpa [Op.ids, hanc] using hx)
  | setData y v =>
    simp only [Op.ids, List.mem_singleton] at hx; subst hx
    simp only [Op.step, Forest.setData, getData_dead hd]; rfl
  | insert y dest => exact hins y dest (by simpa [Op.ids, hanc] using hx)
  | detach y =>
    simp only [Op.ids, List.mem_singleton] at hx; subst hx
    obtain ⟨m, e⟩ := Hier.detach_dead hl
    exact hon (by rw [e]; rfl)
  | detachSingle y =>
    simp only [Op.ids, List.mem_singleton] at hx; subst hx
    obtain ⟨m, e⟩ := Hier.detachSingle_dead hl
    exact hon (by rw [e]; rfl)
  | remove y =>
    simp only [Op.ids, List.mem_singleton] at hx; subst hx
    simp only [Op.step, (C18_remove_dead_noop (S := Unit) hc hd (fun s _ => .ok s) ()).1]; rfl
  | removeHooked S hook c y =>
    simp only [Op.ids, List.mem_singleton] at hx; subst hx
    simp only [Op.step, (C18_remove_dead_noop hc hd hook c).2.1]; rfl
  | removeHookedPanicSafe S hook c y =>
    simp only [Op.ids, List.mem_singleton] at hx; subst hx
    simp only [Op.step, (C18_remove_dead_noop hc hd hook c).2.2]; rfl
  | cloneLocal S cl hook c y =>
    simp only [Op.ids, List.mem_singleton] at hx; subst hx
    simp only [Op.step, Op.forestOf, Forest.cloneLocalTreeWithIdMapping, M.run_bind, M.read, getData_dead hd]; rfl
  | cloneForeign S cl hook c fs y => simp [Op.ids] at hx
  | nodeCreate self d dest =>
    simp only [Op.ids, List.mem_singleton] at hx; subst hx
    simp only [Op.step, hd]; rfl
  | tryAdopt self y dest =>
    simp only [Op.step]
    split
    · rename_i hs
      refine hins y _ ?_
      simp only [Op.ids, List.mem_cons, List.not_mem_nil, or_false] at hx
      rcases hx with rfl | rfl
      · rw [hd] at hs; cases hs
      · exact .inl rfl
    · rfl
  | adopt self y dest =>
    simp only [Op.step]
    split
    · rename_i hs
      simp only [Op.ids, List.mem_cons, List.not_mem_nil, or_false] at hx
      have hxy : x = y := by
        rcases hx with rfl | rfl
        · rw [hd] at hs; cases hs
        · rfl
      have := hins y (dest.insertWithAnchor self) (.inl hxy)
      unfold NodeMut.adopt NodeMut.tryAdopt
      rw [M.run_bind]
      unfold Forest.insert at this
      cases e : Forest.onHier (Hier.insert y (dest.insertWithAnchor self)) f with
      | fail a t => rw [e] at this; exact this
      | ok a t =>
        rw [e] at this
        cases a with
        | ok u => exact this
        | error u => exact this
    · rfl
  | nest d calls => simp [Op.ids] at hx
  | chain d calls => simp [Op.ids] at hx

theorem sameIn_refl {Q : Nat → Prop} (h : Separate cap Q f) : SameIn cap Q f f :=
  ⟨rfl, rfl, fun _ _ => rfl, fun _ _ => rfl, h⟩

theorem step_later (hc : Coherent f) (op : Op T) : Coherent (op.step cap f) ∧ Later f (op.step cap f) :=
  ⟨(step_evolves f op hc).1, (step_evolves f op hc).2⟩

theorem step_low (hc : Coherent f) (h : f.issued ≤ cap) (op : Op T) : (op.step cap f).issued ≤ cap :=
  ((run_fits (cap := cap) [op] f) hc).2 h

theorem step_bounded (hc : Coherent f) (hb : Bounded f) (op : Op T) (hcap : (op.step cap f).issued ≤ cap) :
    Bounded (op.step cap f) := by
  by_cases hx : ∃ x ∈ op.ids, f.issued ≤ x
  · obtain ⟨x, h1, h2⟩ := hx
    rw [bogus_call hc op h1 h2]; exact hb
  · obtain ⟨hc', hl⟩ := step_later (cap := cap) hc op
    have hle := hl.issued
    have e := (C60_step hcap hc op (Nat.le_refl _)).1
    have hlen := hc.len
    have hlen' := hc'.len
    generalize hN : (op.step cap f).issued = N at *
    have hs : SameIn N (fun x => x < N) f f := sameIn_refl ⟨fun x _ nb hn y hy => by
      have := hb x nb hn y hy
      unfold Forest.issued at hle; omega, fun x _ h => h⟩
    have h2 := (Op.step_local N hs op fun x h => by
      have : ¬ f.issued ≤ x := fun h' => hx ⟨x, h, h'⟩
      omega).2.1
    rw [e] at h2
    intro x nb hn y hy
    have hxN : x < N := by
      apply Classical.byContradiction
      intro hge
      rw [hc'.neighbors_dead (dead_of_ge (by omega))] at hn
      cases hn
    have := h2.separate.closed x hxN nb hn y hy
    unfold Forest.issued at hN
    omega

/-! ### A forest without some nodes -/

open Classical in
theorem neighbors_without (x : Nat) : (f.without B).hier.neighbors x = if B x then none else f.hier.neighbors x := by
  unfold Forest.without
  by_cases h : x < f.hier.nbrs.length
  · simp only [Hier.neighbors, List.getElem?_map, List.getElem?_range h, Option.map_some]
    by_cases hb : B x
    · simp [hb, Neighbors.removed, Neighbors.isAlive, Option.filter]
    · simp only [hb, if_false]
      rw [List.getElem?_eq_getElem h]
      by_cases ha : f.hier.nbrs[x].isAlive = true
      · simp [Option.filter, ha]
      · simp [Option.filter, ha, show Neighbors.removed.isAlive = false from rfl]
  · have h1 : f.hier.neighbors x = none := by unfold Hier.neighbors; rw [List.getElem?_eq_none (by omega)]; rfl
    rw [h1, ite_self]
    simp only [Hier.neighbors]
    rw [List.getElem?_eq_none (by simp; omega)]; rfl

open Classical in
theorem getData_without (x : Nat) : (f.without B).getData x = if B x then none else f.getData x := by
  unfold Forest.without
  by_cases h : x < f.data.length
  · simp only [Forest.getData, List.getElem?_map, List.getElem?_range h, Option.map_some, Option.bind_some]
  · have h1 : f.getData x = none := by unfold Forest.getData; rw [List.getElem?_eq_none (by omega)]; rfl
    rw [h1, ite_self]
    simp only [Forest.getData]
    rw [List.getElem?_eq_none (by simp; omega)]; rfl

theorem without_len : (f.without B).hier.nbrs.length = f.hier.nbrs.length := by simp [Forest.without]
theorem without_dlen : (f.without B).data.length = f.data.length := by simp [Forest.without]

theorem isAlive_getData (x : Nat) : f.isAlive x = (f.getData x).isSome := by
  unfold Forest.isAlive Forest.getData
  cases f.data[x]? with
  | none => rfl
  | some o => rfl

theorem alive_without (x : Nat) : (f.without B).isAlive x = true ↔ ¬ B x ∧ f.isAlive x = true := by
  rw [isAlive_getData, getData_without, isAlive_getData]
  split <;> simp_all

/-! ### Links of a well-formed shape -/

namespace Shape
variable {s : Shape}

theorem mem_sibs_parent (hv : s.Valid) {x y : Nat} (h : y ∈ s.sibs x) : y = x ∨ ∃ p, s.parent x = some p ∧ s.parent y = some p := by
  unfold sibs at h
  cases e : s.parent x with
  | none => rw [e] at h; left; simpa using h
  | some p => rw [e] at h; exact .inr ⟨p, rfl, (hv.mem_kids y p).1 h⟩

theorem mentions_rel (hv : s.Valid) {x y : Nat} (h : (s.link x).mentions y) :
    y = x ∨ s.parent x = some y ∨ s.parent y = some x ∨ ∃ p, s.parent x = some p ∧ s.parent y = some p := by
  have hs : y ∈ s.sibs x → y = x ∨ s.parent x = some y ∨ s.parent y = some x ∨ ∃ p, s.parent x = some p ∧ s.parent y = some p := fun h => by
    rcases mem_sibs_parent hv h with h | h
    · exact .inl h
    · exact .inr (.inr (.inr h))
  rcases h with h | h | h | h
  · exact .inr (.inl h)
  · refine hs ?_
    unfold link at h; simp only at h
    cases e : s.prev x with
    | none => rw [e] at h; simp only [Option.none_or] at h; exact List.mem_of_getLast? h
    | some z =>
      rw [e] at h; simp only [Option.some_or, Option.some.injEq] at h; subst h
      have := List.mem_of_getLast? e
      exact (List.takeWhile_sublist _).subset this
  · refine hs ?_
    have h' : (after (s.sibs x) x).head? = some y := h
    have := List.mem_of_head? h'
    exact (List.dropWhile_sublist _).subset (List.mem_of_mem_tail this)
  · have h' : (s.kids x).head? = some y := h
    exact .inr (.inr (.inl ((hv.mem_kids y x).1 (List.mem_of_head? h'))))

theorem mentions_alive (hv : s.Valid) {x y : Nat} (hx : s.alive x = true) (h : (s.link x).mentions y) : s.alive y = true := by
  rcases mentions_rel hv h with rfl | h | h | ⟨p, _, h⟩
  · exact hx
  · exact (hv.parent_alive _ _ h).2
  · exact (hv.parent_alive _ _ h).1
  · exact (hv.parent_alive _ _ h).1

theorem mentions_closed (hv : s.Valid) {B : Nat → Prop} (hB : ∀ x p, s.parent x = some p → (B x ↔ B p)) {x y : Nat}
    (hx : B x) (h : (s.link x).mentions y) : B y := by
  rcases mentions_rel hv h with rfl | h | h | ⟨p, h1, h2⟩
  · exact hx
  · exact (hB _ _ h).1 hx
  · exact (hB _ _ h).2 hx
  · exact (hB _ _ h2).2 ((hB _ _ h1).1 hx)

open Classical in
/-- Forget the trees in `B`, and let there be `n` IDs. -/
noncomputable def drop (s : Shape) (B : Nat → Prop) (n : Nat) : Shape :=
  ⟨n, fun x => s.alive x && !decide (B x), fun x => if B x then none else s.parent x, fun x => if B x then [] else s.kids x⟩

theorem drop_valid (hv : s.Valid) {B : Nat → Prop} (hB : ∀ x p, s.parent x = some p → (B x ↔ B p)) {n : Nat} (hn : s.size ≤ n) :
    (s.drop B n).Valid := by
  have hp : ∀ x p, (s.drop B n).parent x = some p ↔ s.parent x = some p ∧ ¬ B x := fun x p => by
    simp only [drop]; split <;> simp_all
  refine ⟨fun x h => ?_, fun x p h => ?_, fun x p => ?_, fun p => ?_, fun x => ?_⟩
  · simp only [drop, Bool.and_eq_true] at h
    exact Nat.lt_of_lt_of_le (hv.alive_lt x h.1) hn
  · rw [hp] at h
    obtain ⟨h1, h2⟩ := hv.parent_alive x p h.1
    have h3 : ¬ B p := fun h' => h.2 ((hB _ _ h.1).2 h')
    simp [drop, h1, h2, h.2, h3]
  · rw [hp]
    simp only [drop]
    split
    · rename_i h; simp only [List.not_mem_nil, false_iff, not_and, Classical.not_not]
      intro h1; exact (hB _ _ h1).2 h
    · rename_i h
      rw [hv.mem_kids]
      exact ⟨fun h1 => ⟨h1, fun h2 => h ((hB _ _ h1).1 h2)⟩, fun h1 => h1.1⟩
  · simp only [drop]; split
    · exact List.nodup_nil
    · exact hv.kids_nodup p
  · have hr := hv.rooted x
    induction hr with
    | root h => exact .root (by simp only [drop]; split <;> simp_all)
    | @step x p h _ ih =>
      by_cases hb : B x
      · exact .root (by simp [drop, hb])
      · exact .step ((hp x p).2 ⟨h, hb⟩) ih

theorem drop_link {B : Nat → Prop} (hB : ∀ x p, s.parent x = some p → (B x ↔ B p)) {n x : Nat} (hx : ¬ B x) :
    (s.drop B n).link x = s.link x := by
  have hs : (s.drop B n).sibs x = s.sibs x := by
    unfold sibs
    simp only [drop, hx, if_false]
    cases e : s.parent x with
    | none => rfl
    | some p => simp only [(not_congr (hB x p e)).1 hx, if_false]
  unfold link prev next first
  rw [hs]
  simp only [drop, hx, if_false]

end Shape

/-- The tainted nodes contain whatever is wrong. -/
structure Contained (cap : Nat) (f : Forest T) (B : Nat → Prop) : Prop where
  coh : Coherent f
  low : f.issued ≤ cap
  bounded : Bounded f
  sound : Consistent (f.without B)
  apart : ∀ x, B x → ∀ nb, f.hier.neighbors x = some nb → ∀ y, nb.mentions y → B y ∨ f.isAlive y = false
  known : ∀ x, B x → x < f.issued

/-- The part in which a forest can be trusted. -/
abbrev Clean (f : Forest T) (B : Nat → Prop) (x : Nat) : Prop := ¬ B x ∨ f.isAlive x = false

theorem models_neighbors {s : Shape} (hm : Models f s) (x : Nat) : f.hier.neighbors x = if s.alive x then some (s.link x) else none := by
  by_cases hx : x < s.size
  · have := hm.repr.2 x hx
    unfold Hier.neighbors
    rw [this]
    have h2 := hm.valid.entry_isAlive x
    cases e : s.alive x with
    | true => rw [e, Shape.entry_alive e] at h2; simp [Option.filter, h2, Shape.entry_alive e]
    | false => rw [e] at h2; simp [Option.filter, h2]
  · have h1 : s.alive x = false := by
      cases e : s.alive x with
      | false => rfl
      | true => exact absurd (hm.valid.alive_lt x e) hx
    unfold Hier.neighbors
    rw [List.getElem?_eq_none (by rw [hm.repr.1]; omega), h1]; rfl

theorem models_ext {s : Shape} (hm : Models f s) {g : Forest T} (h1 : g.hier.nbrs.length = f.hier.nbrs.length)
    (h2 : g.data.length = f.data.length) (h3 : ∀ x, g.hier.neighbors x = f.hier.neighbors x) (h4 : ∀ x, g.getData x = f.getData x)
    (h5 : ∀ x, x < g.hier.nbrs.length → g.hier.neighbors x = none → g.hier.nbrs[x]? = some Neighbors.removed) : g = f := by
  have key : ∀ x, g.hier.nbrs[x]? = f.hier.nbrs[x]? := fun x => by
    by_cases hx : x < g.hier.nbrs.length
    · have hn := h3 x
      have hx' : x < s.size := by rw [← hm.repr.1, ← h1]; exact hx
      cases e : g.hier.neighbors x with
      | none =>
        rw [h5 x hx e]
        rw [e, models_neighbors hm] at hn
        have : s.alive x = false := by
          cases e' : s.alive x with
          | false => rfl
          | true => rw [e'] at hn; cases hn
        rw [hm.repr.2 x hx', Shape.entry_dead this]
      | some nb =>
        rw [e] at hn
        unfold Hier.neighbors at e hn
        rw [(Option.filter_eq_some_iff.1 e).1, (Option.filter_eq_some_iff.1 hn.symm).1]
    · rw [List.getElem?_eq_none (by omega), List.getElem?_eq_none (by omega)]
  have key2 : ∀ x, g.data[x]? = f.data[x]? := fun x => by
    have := h4 x
    unfold Forest.getData at this
    by_cases hx : x < g.data.length
    · rw [List.getElem?_eq_getElem hx, List.getElem?_eq_getElem (h2 ▸ hx)] at this ⊢
      simpa using this
    · rw [List.getElem?_eq_none (by omega), List.getElem?_eq_none (by omega)]
  obtain ⟨⟨a⟩, b⟩ := g
  obtain ⟨⟨a'⟩, b'⟩ := f
  have e1 : a = a' := List.ext_getElem? key
  have e2 : b = b' := List.ext_getElem? key2
  rw [e1, e2]

theorem without_removed {x : Nat} (hx : x < (f.without B).hier.nbrs.length) (h : (f.without B).hier.neighbors x = none) :
    (f.without B).hier.nbrs[x]? = some Neighbors.removed := by
  rw [neighbors_without] at h
  rw [without_len] at hx
  unfold Forest.without
  simp only [List.getElem?_map, List.getElem?_range hx, Option.map_some]
  split
  · rfl
  · rename_i hb; rw [if_neg hb] at h; rw [h]; rfl

/-- What is needed of a call, `F` being the forest after it as a function of the forest before it, and `ids` the IDs given
to it. -/
structure Tame (cap : Nat) (ids : List Nat) (F : Forest T → Forest T) : Prop where
  later : ∀ f, Coherent f → Coherent (F f) ∧ Later f (F f)
  low : ∀ f, Coherent f → f.issued ≤ cap → (F f).issued ≤ cap
  bounded : ∀ f, Coherent f → Bounded f → (F f).issued ≤ cap → Bounded (F f)
  loc : ∀ {Q : Nat → Prop} {f g : Forest T}, SameIn cap Q f g → (∀ x ∈ ids, Q x) →
    SameIn cap Q (F f) (F g) ∧ SameOut cap Q f (F f)

theorem Tame.op (op : Op T) : Tame cap op.ids (op.step cap) :=
  ⟨fun _ h => step_later h op, fun _ h1 h2 => step_low h1 h2 op, fun _ h1 h2 h3 => step_bounded h1 h2 op h3,
    fun h hq => (Op.step_local cap h op hq).2⟩

namespace Contained

theorem aliveS (h : Contained cap f B) {s : Shape} (hm : Models (f.without B) s) (x : Nat) :
    s.alive x = true ↔ ¬ B x ∧ f.isAlive x = true := by
  rw [← hm.dataAlive, ← isAlive_getData, alive_without]

theorem clean (h : Contained cap f B) : SameIn cap (Clean f B) f (f.without B) := by
  obtain ⟨s, hm⟩ := h.sound
  refine ⟨without_len.symm, without_dlen.symm, fun x hx => ?_, fun x hx => ?_, fun x hx nb hn y hy => ?_, fun x hx _ => ?_⟩
  · rw [neighbors_without]
    rcases hx with hx | hx
    · rw [if_neg hx]
    · rw [h.coh.neighbors_dead hx]; simp
  · rw [getData_without]
    rcases hx with hx | hx
    · rw [if_neg hx]
    · rw [getData_dead hx]; simp
  · have ha := h.coh.alive_of hn
    have hb : ¬ B x := by
      rcases hx with hx | hx
      · exact hx
      · rw [ha] at hx; cases hx
    have hs := (h.aliveS hm x).2 ⟨hb, ha⟩
    have e := models_neighbors hm x
    rw [neighbors_without, if_neg hb, hn, hs] at e
    cases e
    exact .inl ((h.aliveS hm y).1 (Shape.mentions_alive hm.valid hs hy)).1
  · refine .inr (dead_of_ge ?_)
    have := h.coh.len
    unfold Forest.issued
    omega

/-- A call that can be trusted. -/
theorem good_of {F : Forest T → Forest T} {ids : List Nat} (tm : Tame cap ids F) (h : Contained cap f B)
    (hq : ∀ x ∈ ids, Clean f B x) (hcons : Consistent (F (f.without B))) :
    Contained cap (F f) B ∧ (F f).without B = F (f.without B) := by
  obtain ⟨s, hm⟩ := h.sound
  obtain ⟨hc', hl⟩ := tm.later f h.coh
  obtain ⟨hin, hout⟩ := tm.loc h.clean hq
  have hcw : Coherent (f.without B) := ⟨by rw [without_len, without_dlen, h.coh.len], fun x => by
    rw [hm.isAlive, hm.hierAlive]⟩
  obtain ⟨hcw', hlw⟩ := tm.later _ hcw
  have hdeadw : ∀ x, B x → (F (f.without B)).isAlive x = false := fun x hx => by
    refine hlw.dead x ?_ ?_
    · unfold Forest.issued; rw [without_dlen]; exact h.known x hx
    · cases e : (f.without B).isAlive x with
      | false => rfl
      | true => exact absurd hx ((alive_without x).1 e).1
  obtain ⟨s', hm'⟩ := hcons
  have heq : (F f).without B = F (f.without B) := by
    refine models_ext hm' ?_ ?_ ?_ ?_ fun x => without_removed
    · rw [without_len]; exact hin.size
    · rw [without_dlen]; exact hin.dataSize
    · intro x
      rw [neighbors_without]
      split
      · rename_i hb; exact (hcw'.neighbors_dead (hdeadw x hb)).symm
      · rename_i hb; exact hin.links x (.inl hb)
    · intro x
      rw [getData_without]
      split
      · rename_i hb; exact (getData_dead (hdeadw x hb)).symm
      · rename_i hb; exact hin.data x (.inl hb)
  have hlow : (F f).issued ≤ cap := tm.low f h.coh h.low
  refine ⟨⟨hc', hlow, tm.bounded f h.coh h.bounded hlow, heq ▸ ⟨s', hm'⟩, fun x hx nb hn y hy => ?_, fun x hx => ?_⟩, heq⟩
  · have ha : f.isAlive x = true := by
      cases e : f.isAlive x with
      | true => rfl
      | false =>
        rw [hc'.neighbors_dead (hl.dead x (h.known x hx) e)] at hn; cases hn
    have hraw := hout.links x (by
      rintro (h1 | h1)
      · exact h1 hx
      · rw [ha] at h1; cases h1)
    unfold Hier.neighbors at hn
    rw [hraw] at hn
    rcases h.apart x hx nb hn y hy with h1 | h1
    · exact .inl h1
    · refine .inr (hl.dead y ?_ h1)
      have := h.bounded x nb hn y hy
      unfold Forest.issued; rw [h.coh.len]; exact this
  · exact Nat.lt_of_lt_of_le (h.known x hx) hl.issued

/-- A call that cannot. -/
theorem bad_of {F : Forest T → Forest T} {ids : List Nat} (tm : Tame cap ids F) (h : Contained cap f B) :
    Contained cap (F f) fun y =>
      B y ∨ (f.isAlive y = true ∧ ∃ x ∈ ids, Connected f x y) ∨ (f.issued ≤ y ∧ y < (F f).issued) := by
  obtain ⟨s, hm⟩ := h.sound
  obtain ⟨hc', hl⟩ := tm.later f h.coh
  have hlow : (F f).issued ≤ cap := tm.low f h.coh h.low
  have hbd := tm.bounded f h.coh h.bounded hlow
  obtain ⟨B1, hB1⟩ : ∃ B1 : Nat → Prop, ∀ y, B1 y ↔ (B y ∨ (f.isAlive y = true ∧ ∃ x ∈ ids, Connected f x y)) := ⟨_, fun _ => Iff.rfl⟩
  have hpar : ∀ x p, s.parent x = some p → f.parentId x = .ok (some p) := fun x p hp => by
    have ha := (hm.valid.parent_alive x p hp).1
    have hb := ((h.aliveS hm x).1 ha)
    have e := models_neighbors hm x
    rw [neighbors_without, if_neg hb.1, ha] at e
    have e' : f.hier.neighbors x = some (s.link x) := e
    have hal : (s.link x).isAlive = true := by
      have := hm.valid.entry_isAlive x
      rw [Shape.entry_alive ha, ha] at this; exact this
    unfold Forest.parentId Forest.nbr
    rw [e']
    simp only [expect_some]
    unfold Neighbors.getParent
    simp only [hal]
    exact congrArg Except.ok hp
  have hclosed : ∀ x p, s.parent x = some p → (B1 x ↔ B1 p) := fun x p hp => by
    obtain ⟨ha, hap⟩ := hm.valid.parent_alive x p hp
    have hb := (h.aliveS hm x).1 ha
    have hbp := (h.aliveS hm p).1 hap
    rw [hB1, hB1]
    constructor
    · rintro (h1 | ⟨_, z, hz, hc⟩)
      · exact absurd h1 hb.1
      · exact .inr ⟨hbp.2, z, hz, .up hc (hpar x p hp)⟩
    · rintro (h1 | ⟨_, z, hz, hc⟩)
      · exact absurd h1 hbp.1
      · exact .inr ⟨hb.2, z, hz, .down hc (hpar x p hp)⟩
  have hsep : Separate cap (fun x => B1 x ∨ f.isAlive x = false) f := by
    refine ⟨fun x hx nb hn y hy => ?_, fun x hx _ => .inr (dead_of_ge ?_)⟩
    · have ha := h.coh.alive_of hn
      have hx1 : B1 x := by
        rcases hx with hx | hx
        · exact hx
        · rw [ha] at hx; cases hx
      by_cases hb : B x
      · rcases h.apart x hb nb hn y hy with h1 | h1
        · exact .inl ((hB1 y).2 (.inl h1))
        · exact .inr h1
      · have hs := (h.aliveS hm x).2 ⟨hb, ha⟩
        have e := models_neighbors hm x
        rw [neighbors_without, if_neg hb, hn, hs] at e
        cases e
        exact .inl (Shape.mentions_closed hm.valid hclosed hx1 hy)
    · have := h.coh.len
      unfold Forest.issued
      omega
  obtain ⟨hin, hout⟩ := tm.loc (sameIn_refl hsep) fun x hx => by
    cases e : f.isAlive x with
    | false => exact .inr rfl
    | true => exact .inl ((hB1 x).2 (.inr ⟨e, x, hx, .refl⟩))
  have hB' : (fun y => B y ∨ (f.isAlive y = true ∧ ∃ x ∈ ids, Connected f x y) ∨ (f.issued ≤ y ∧ y < (F f).issued)) =
      fun y => B1 y ∨ (f.issued ≤ y ∧ y < (F f).issued) := by
    funext y; rw [hB1, or_assoc]
  rw [hB']
  have hsz : s.size ≤ (F f).issued := by
    have h1 := hm.dataLen
    rw [without_dlen] at h1
    have h2 := hl.issued
    unfold Forest.issued at h2 ⊢
    omega
  have hszf : s.size = f.issued := by
    have h1 := hm.dataLen
    rw [without_dlen] at h1
    exact h1.symm
  have hout' : ∀ x, ¬ B1 x → f.isAlive x = true → (F f).hier.neighbors x = f.hier.neighbors x ∧
      (F f).getData x = f.getData x := fun x h1 h2 => by
    have hq : ¬ (B1 x ∨ f.isAlive x = false) := by
      rintro (h3 | h3)
      · exact h1 h3
      · rw [h2] at h3; cases h3
    have hlt : x < f.issued := by
      apply Classical.byContradiction
      intro hge
      rw [dead_of_ge (by omega)] at h2; cases h2
    have hlw := h.low
    refine ⟨?_, ?_⟩
    · unfold Hier.neighbors; rw [hout.links x hq]
    · unfold Forest.getData; rw [hout.data x hq (by omega)]
  have hgone : ∀ x, ¬ B1 x → ¬ (f.issued ≤ x ∧ x < (F f).issued) → f.isAlive x = false →
      (F f).isAlive x = false := fun x h1 h2 h3 => by
    by_cases hx : x < f.issued
    · exact hl.dead x hx h3
    · exact dead_of_ge (by omega)
  have halive : ∀ x, ((s.drop B1 (F f).issued).alive x = true ↔ ¬ B1 x ∧ f.isAlive x = true) := fun x => by
    simp only [Shape.drop, Bool.and_eq_true, Bool.not_eq_true', decide_eq_false_iff_not]
    rw [h.aliveS hm]
    constructor
    · rintro ⟨h1, h2⟩; exact ⟨h2, h1.2⟩
    · rintro ⟨h1, h2⟩; exact ⟨⟨fun h3 => h1 ((hB1 x).2 (.inl h3)), h2⟩, h1⟩
  refine ⟨hc', hlow, hbd, ⟨s.drop B1 (F f).issued, Shape.drop_valid hm.valid hclosed hsz, ⟨?_, fun x hx => ?_⟩, ?_, fun x => ?_⟩, ?_, ?_⟩
  · rw [without_len, ← hc'.len]; rfl
  · have hlen : x < ((F f).without fun y => B1 y ∨ (f.issued ≤ y ∧ y < (F f).issued)).hier.nbrs.length := by
      rw [without_len, ← hc'.len]; exact hx
    cases e : (s.drop B1 (F f).issued).alive x with
    | false =>
      rw [Shape.entry_dead e]
      refine without_removed hlen ?_
      rw [neighbors_without]
      split
      · rfl
      · rename_i hn
        have h1 : ¬ B1 x := fun h => hn (.inl h)
        refine hc'.neighbors_dead (hgone x h1 (fun h => hn (.inr h)) ?_)
        cases e' : f.isAlive x with
        | false => rfl
        | true => rw [(halive x).2 ⟨h1, e'⟩] at e; cases e
    | true =>
      rw [Shape.entry_alive e]
      obtain ⟨h1, h2⟩ := (halive x).1 e
      have hb : ¬ B x := fun h => h1 ((hB1 x).2 (.inl h))
      rw [Shape.drop_link hclosed h1]
      have hx' : x < f.issued := by
        apply Classical.byContradiction
        intro hge
        rw [dead_of_ge (by omega)] at h2; cases h2
      have hn : ((F f).without fun y => B1 y ∨ (f.issued ≤ y ∧ y < (F f).issued)).hier.neighbors x = some (s.link x) := by
        rw [neighbors_without, if_neg (by rintro (h3 | h3); exacts [h1 h3, by omega]), (hout' x h1 h2).1]
        have e1 := models_neighbors hm x
        rw [neighbors_without, if_neg hb, (h.aliveS hm x).2 ⟨hb, h2⟩] at e1
        exact e1
      unfold Hier.neighbors at hn
      exact (Option.filter_eq_some_iff.1 hn).1
  · rw [without_dlen]; rfl
  · rw [getData_without]
    cases e : (s.drop B1 (F f).issued).alive x with
    | true =>
      obtain ⟨h1, h2⟩ := (halive x).1 e
      have hx' : x < f.issued := by
        apply Classical.byContradiction
        intro hge
        rw [dead_of_ge (by omega)] at h2; cases h2
      rw [if_neg (by rintro (h3 | h3); exacts [h1 h3, by omega]), (hout' x h1 h2).2, ← isAlive_getData, h2]
    | false =>
      split
      · rfl
      · rename_i hn
        have h1 : ¬ B1 x := fun h => hn (.inl h)
        have : (F f).isAlive x = false := by
          refine hgone x h1 (fun h => hn (.inr h)) ?_
          cases e' : f.isAlive x with
          | false => rfl
          | true => rw [(halive x).2 ⟨h1, e'⟩] at e; cases e
        rw [← isAlive_getData, this]
  · intro x hx nb hn y hy
    have hq : B1 x ∨ f.isAlive x = false := by
      rcases hx with hx | hx
      · exact .inl hx
      · exact .inr (dead_of_ge hx.1)
    rcases hin.separate.closed x hq nb hn y hy with h1 | h1
    · exact .inl (.inl h1)
    · by_cases hy' : y < f.issued
      · exact .inr (hl.dead y hy' h1)
      · refine .inl (.inr ⟨by omega, ?_⟩)
        have := hbd x nb hn y hy
        unfold Forest.issued; rw [hc'.len]; exact this
  · rintro x (hx | hx)
    · rcases (hB1 x).1 hx with h1 | h1
      · exact Nat.lt_of_lt_of_le (h.known x h1) hl.issued
      · refine Nat.lt_of_lt_of_le ?_ hl.issued
        apply Classical.byContradiction
        intro hge
        rw [dead_of_ge (by omega)] at h1; cases h1.1
    · exact hx.2

/-- A call that can be trusted. -/
theorem good_call (h : Contained cap f B) (op : Op T) (hq : ∀ x ∈ op.ids, Clean f B x) (hh : ¬ op.Harmful (f.without B)) :
    Contained cap (op.step cap f) B ∧ (op.step cap f).without B = op.step cap (f.without B) := by
  obtain ⟨s, hm⟩ := h.sound
  refine good_of (Tame.op op) h hq ?_
  rcases step_cases (cap := cap) hm op with h | h
  · exact h.1
  · exact absurd h.2 hh

/-- A call that cannot. -/
theorem bad_call (h : Contained cap f B) (op : Op T) :
    Contained cap (op.step cap f) fun y =>
      B y ∨ (f.isAlive y = true ∧ ∃ x ∈ op.ids, Connected f x y) ∨ (f.issued ≤ y ∧ y < (op.step cap f).issued) :=
  bad_of (Tame.op op) h

end Contained

theorem inPlace_local {Q : Nat → Prop} {g : Forest T} (h : SameIn cap Q f g) (x : Nat) {dest : InsertAs}
    (hd : Q dest.place.anchor) : InPlace f x dest ↔ InPlace g x dest := by
  have h1 : ∀ a, Q a → f.firstChildId a = g.firstChildId a := fun a ha => (Forest.linkOf_same h ha .firstChild).1
  have h2 : ∀ a, Q a → f.lastChildId a = g.lastChildId a := fun a ha => (Forest.linkOf_same h ha .lastChild).1
  have h3 : ∀ a, Q a → f.prevSiblingId a = g.prevSiblingId a := fun a ha => (Forest.linkOf_same h ha .prev).1
  have h4 : ∀ a, Q a → f.nextSiblingId a = g.nextSiblingId a := fun a ha => (Forest.linkOf_same h ha .next).1
  cases dest with
  | firstChildOf a => simp only [InPlace]; rw [h1 a hd, h2 a hd]
  | lastChildOf a => simp only [InPlace]; rw [h2 a hd]
  | previousSiblingOf a => simp only [InPlace]; rw [h3 a hd]
  | nextSiblingOf a => simp only [InPlace]; rw [h4 a hd]

theorem harmful_local {Q : Nat → Prop} {g : Forest T} (h : SameIn cap Q f g) (op : Op T) (hq : ∀ x ∈ op.ids, Q x) :
    op.Harmful f ↔ op.Harmful g := by
  have hp : ∀ (self : Nat) (dest : AdoptAs), (adoptPlace self dest).place.anchor = self := fun self dest => by cases dest <;> rfl
  cases op with
  | insert x dest => exact inPlace_local h x (hq _ (by simp [Op.ids]))
  | tryAdopt self x dest => exact inPlace_local h x (by rw [hp]; exact hq _ (by simp [Op.ids]))
  | adopt self x dest => exact inPlace_local h x (by rw [hp]; exact hq _ (by simp [Op.ids]))
  | removeHooked S hook c x =>
    have hx := hq x (by simp [Op.ids])
    obtain ⟨t, t', h1, _, _, h4⟩ := Forest.removeHooked_loc hook hx (f, c) (g, c) ⟨h, rfl⟩
    simp only [Op.Harmful]
    rcases h4 with ⟨a, e1, e2, _⟩ | ⟨e, e1, e2⟩
    · rw [e1, e2]; simp
    · rw [e1, e2]
      obtain ⟨t, u⟩ := t
      obtain ⟨t', u'⟩ := t'
      have := Forest.isAlive_same h1.1 hx
      simp only [Res.fail.injEq, Prod.mk.injEq]
      constructor
      · rintro ⟨_, _, _, ⟨rfl, rfl, rfl⟩, h⟩; exact ⟨_, _, _, ⟨rfl, rfl, rfl⟩, by rw [← this]; exact h⟩
      · rintro ⟨_, _, _, ⟨rfl, rfl, rfl⟩, h⟩; exact ⟨_, _, _, ⟨rfl, rfl, rfl⟩, by rw [this]; exact h⟩
  | _ => exact Iff.rfl

end Treena
