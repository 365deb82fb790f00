import Verif.Proof.LooksSingle
/-!
# How much of a forest a client that changes it looks at
-/
set_option autoImplicit false
namespace Treena
variable {T α β : Type} {j k : Nat} {cap um : Nat} {f : Forest T}

theorem AgreeAt.refl (L : List Nat) (f : Forest T) : AgreeAt L f f := fun _ _ => ⟨rfl, rfl⟩

/-- One call after another, the second chosen by the answer of the first. -/
theorem Touches.seq {F : Forest T → Forest T × α} {G : α → Forest T → Forest T × β} (hF : Touches j f F)
    (hG : Touches k (F f).1 (G (F f).2)) : Touches (j + k) f fun g => G (F g).2 (F g).1 := by
  obtain ⟨L, l, e⟩ := hF
  obtain ⟨M, m, d⟩ := hG
  refine ⟨L ++ M, by simp; omega, fun g hg => ?_⟩
  have e0 := e f (.refl L f)
  have d0 := d (F f).1 (.refl M _)
  obtain ⟨e1, e2, e3⟩ := e g fun x hx => hg x (by simp [hx])
  have mid : ∀ x ∈ L ++ M, (F g).1.hier.nbrs[x]? = (F f).1.hier.nbrs[x]? ∧ (F g).1.data[x]? = (F f).1.data[x]? := by
    intro x hx
    by_cases h : x ∈ L
    · exact e2 x h
    · have a1 := e3 x h
      have a2 := e0.2.2 x h
      have a3 := hg x hx
      exact ⟨a1.1.trans (a3.1.trans a2.1.symm), a1.2.trans (a3.2.trans a2.2.symm)⟩
  obtain ⟨d1, d2, d3⟩ := d (F g).1 fun x hx => mid x (by simp [hx])
  dsimp only
  rw [e1]
  refine ⟨d1, fun x hx => ?_, fun x hx => ?_⟩
  · by_cases h : x ∈ M
    · exact d2 x h
    · have a1 := d3 x h
      have a2 := d0.2.2 x h
      have a3 := mid x hx
      exact ⟨a1.1.trans (a3.1.trans a2.1.symm), a1.2.trans (a3.2.trans a2.2.symm)⟩
  · have a1 := d3 x fun h => hx (by simp [h])
    have a2 := e3 x fun h => hx (by simp [h])
    exact ⟨a1.1.trans a2.1, a1.2.trans a2.2⟩

theorem Touches.more {F : Forest T → Forest T × α} (hF : Touches j f F) (h : j ≤ k) : Touches k f F := by
  obtain ⟨L, l, e⟩ := hF
  exact ⟨L, by omega, e⟩

theorem exec_slots (b : Build) (q : Req T) {n : Nat} (h : q.slots = some n) (g : Forest T) : (b.exec cap um g q).1 = g := by
  cases q <;> first | rfl | (cases h; done)

theorem Touches.cost (b : Build) (q : Req T) {n : Nat} (h : q.cost = some n) : Touches n f fun g => b.exec cap um g q := by
  have look : q.slots = some n → Touches n f fun g => b.exec cap um g q := by
    intro h
    obtain ⟨L, l, e⟩ := Looks.lookUp (f := f) q h b cap um
    refine ⟨L, l, fun g hg => ⟨e g hg, ?_, fun x _ => ?_⟩⟩ <;> dsimp only
    · rw [exec_slots b q h, exec_slots b q h]; exact hg
    · rw [exec_slots b q h]; exact ⟨rfl, rfl⟩
  cases q with
  | detach x => cases h; exact Touches.detach b x
  | setData x v => cases h; exact Touches.setData b x v
  | _ => exact look h

theorem Touches.dialogue (b : Build) {client : List (Ans T) → Req T} {k : Nat} : ∀ (n : Nat) (f : Forest T) (seen : List (Ans T)),
    (∀ i, i < n → ∀ r, b.dialogue cap um client i f seen = r → Touches k r.1 fun g => b.exec cap um g (client r.2)) →
    Touches (n * k) f fun g => b.dialogue cap um client n g seen
  | 0, f, seen, _ => ⟨[], by simp, fun g hg => ⟨rfl, hg, fun _ _ => ⟨rfl, rfl⟩⟩⟩
  | n + 1, f, seen, hc => by
    have h0 := hc 0 (by omega) _ rfl
    have hn := Touches.dialogue b n (b.exec cap um f (client seen)).1 (seen ++ [(b.exec cap um f (client seen)).2])
      fun i hi r hr => hc (i + 1) (by omega) r hr
    exact (Touches.seq (G := fun a g => b.dialogue cap um client n g (seen ++ [a])) h0 hn).more (by rw [Nat.succ_mul]; omega)

end Treena
