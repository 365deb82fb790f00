import Verif.Proof.CopyAny
/-!
# Tainted nodes in a history
-/
set_option autoImplicit false

namespace Treena
variable {T : Type} {cap : Nat} {f : Forest T} {B : Nat → Prop}

theorem Op.targets_eq (op : Op T) : op.targets = op.ids ∨ ∃ S cl hook c x, op = .cloneLocal S cl hook c x := by
  cases op with
  | cloneLocal S cl hook c x => exact .inr ⟨S, cl, hook, c, x, rfl⟩
  | _ => exact .inl rfl

theorem Op.targets_sub (op : Op T) {x : Nat} (h : x ∈ op.targets) : x ∈ op.ids := by
  rcases op.targets_eq with e | ⟨S, cl, hook, c, y, rfl⟩
  · rw [← e]; exact h
  · cases h

theorem taintStep_copy {S : Type} (cl : T → Option T) (hook : Forest.MapHook S) (c : S) (x : Nat) :
    taintStep cap f B (.cloneLocal S cl hook c x) = B := by
  unfold taintStep
  rw [if_neg]
  rintro (⟨y, hy, _⟩ | h)
  · cases hy
  · exact h

/-- Copying anything leaves the damage where it is. -/
theorem Contained.copy {S : Type} (h : Contained cap f B) (cl : T → Option T) (hook : Forest.MapHook S) (c : S) (x : Nat) :
    Contained cap (Op.step cap f (.cloneLocal S cl hook c x)) B := by
  obtain ⟨s, hm⟩ := h.sound
  have tm : Tame cap _ fun f => Op.step cap f (.cloneLocal S cl hook c x) := Tame.op (T := T) (.cloneLocal S cl hook c x)
  obtain ⟨hc', hl⟩ := tm.later f h.coh
  have hlow := tm.low f h.coh h.low
  have hbd := tm.bounded f h.coh h.bounded hlow
  have key : Op.step cap f (.cloneLocal S cl hook c x) = f ∨
      ∃ f' g' s' L E, Op.step cap f (.cloneLocal S cl hook c x) = f' ∧ Copying cap (Clean f B) (CopyRel cl f.data) f (f.without B) s f' g' s' L E := by
    rcases copy_local (cl := cl) h.bounded h.coh h.clean hm hook c x with ⟨⟨msg, e⟩, _⟩ | ⟨f', g', s', L, E, st, σ, k, _, _, _, ⟨e, _⟩ | ⟨⟨msg, e⟩, _⟩⟩
    · exact .inl (by simp only [Op.step, e]; rfl)
    · exact .inr ⟨f', g', s', L, E, by simp only [Op.step, e]; rfl, k⟩
    · exact .inr ⟨f', g', s', L, E, by simp only [Op.step, e]; rfl, k⟩
  rcases key with e | ⟨f', g', s', L, E, e, k⟩
  · rw [e]; exact h
  · rw [e] at hc' hl hlow hbd ⊢
    have hsz : s.size = f.issued := by rw [← hm.dataLen, without_dlen]; rfl
    have hdead : ∀ y, B y → s'.alive y = false := fun y hy => by
      rw [k.grown.alive y (by rw [hsz]; exact h.known y hy)]
      cases e : s.alive y with
      | false => rfl
      | true => exact absurd hy ((h.aliveS hm y).1 e).1
    have heq : f'.without B = g' := by
      refine models_ext k.grown.models ?_ ?_ ?_ ?_ fun x => without_removed
      · rw [without_len]; exact k.same.size
      · rw [without_dlen]; exact k.same.dataSize
      · intro y
        rw [neighbors_without]
        split
        · rename_i hb; rw [models_neighbors k.grown.models, hdead y hb]; rfl
        · rename_i hb; exact k.same.links y (.inl hb)
      · intro y
        rw [getData_without]
        split
        · rename_i hb
          have := k.grown.models.dataAlive y
          rw [hdead y hb] at this
          exact (Option.not_isSome_iff_eq_none.1 (by rw [this]; exact Bool.false_ne_true)).symm
        · rename_i hb; exact k.same.data y (.inl hb)
    refine ⟨hc', hlow, hbd, heq ▸ ⟨s', k.grown.models⟩, fun y hy nb hn z hz => ?_, fun y hy => Nat.lt_of_lt_of_le (h.known y hy) hl.issued⟩
    rw [k.oldLinks (by rw [hsz]; exact h.known y hy)] at hn
    rcases h.apart y hy nb hn z hz with h1 | h1
    · exact .inl h1
    · refine .inr (hl.dead z ?_ h1)
      have := h.bounded y nb hn z hz
      unfold Forest.issued; rw [h.coh.len]; exact this

theorem Contained.step (h : Contained cap f B) (op : Op T) : Contained cap (op.step cap f) (taintStep cap f B op) := by
  rcases op.targets_eq with ht | ⟨S, cl, hook, c, x, rfl⟩
  case inr => rw [taintStep_copy]; exact h.copy cl hook c x
  unfold taintStep
  rw [ht]
  split
  · exact h.bad_call op
  · rename_i hn
    have hq : ∀ x ∈ op.ids, Clean f B x := fun x hx => by
      cases e : f.isAlive x with
      | false => exact .inr e
      | true => exact .inl fun hb => hn (.inl ⟨x, hx, hb, e⟩)
    exact (h.good_call op hq fun hh => hn (.inr ((harmful_local h.clean op hq).2 hh))).1

theorem Contained.run (ops : List (Op T)) : ∀ {f : Forest T} {B : Nat → Prop}, Contained cap f B →
    Contained cap (Op.run cap f ops) (taint cap f B ops) := by
  induction ops with
  | nil => intro f B h; exact h
  | cons op ops ih => intro f B h; exact ih (h.step op)

theorem without_none (hc : Consistent f) : f.without (fun _ => False) = f := by
  obtain ⟨s, hm⟩ := hc
  exact models_ext hm without_len without_dlen (fun x => by rw [neighbors_without, if_neg id])
    (fun x => by rw [getData_without, if_neg id]) fun x => without_removed

theorem Contained.start (hc : Consistent f) (hl : f.issued ≤ cap) : Contained cap f fun _ => False := by
  refine ⟨?_, hl, ?_, by rw [without_none hc]; exact hc, fun x h => h.elim, fun x h => h.elim⟩
  · obtain ⟨s, hm⟩ := hc
    exact ⟨by rw [hm.dataLen, hm.repr.1], fun x => by rw [hm.isAlive, hm.hierAlive]⟩
  · obtain ⟨s, hm⟩ := hc
    intro x nb hn y hy
    rw [models_neighbors hm] at hn
    cases e : s.alive x with
    | false => rw [e] at hn; cases hn
    | true =>
      rw [e] at hn; cases hn
      rw [hm.repr.1]
      exact hm.valid.alive_lt y (Shape.mentions_alive hm.valid e hy)

theorem taint_mono (ops : List (Op T)) : ∀ (f : Forest T) (B : Nat → Prop) {x : Nat}, B x → taint cap f B ops x := by
  induction ops with
  | nil => intro f B x h; exact h
  | cons op ops ih =>
    intro f B x h
    refine ih _ _ ?_
    unfold taintStep
    split
    · exact .inl h
    · exact h

theorem taint_careful (ops : List (Op T)) : ∀ (f : Forest T), Careful cap f ops → taint cap f (fun _ => False) ops = fun _ => False := by
  induction ops with
  | nil => intro f _; rfl
  | cons op ops ih =>
    intro f h
    have : taintStep cap f (fun _ => False) op = fun _ => False := by
      unfold taintStep
      rw [if_neg]
      rintro (⟨x, _, h1, _⟩ | h1)
      · exact h1
      · exact h.1 h1
    simp only [taint]
    rw [this]
    exact ih _ h.2

end Treena
