import Verif.Proof.Hang
import Verif.Proof.FuelLoops
import Verif.Proof.Taint
/-!
# Why an insertion hangs
-/
set_option autoImplicit false

namespace Treena
variable {T : Type} {f : Forest T} {cap : Nat}

/-- If the call hangs, then `P`. -/
def HangsIf {σ α : Type} (P : Prop) (r : Res σ α) : Prop := ∀ s, r = .fail .diverge s → P

namespace HangsIf
variable {σ α β : Type} {P : Prop}

theorem of {r : Res σ α} (h : HaltsM r) : HangsIf P r := fun s e => absurd e (h s)
theorem bind {m : M σ α} {k : α → M σ β} {s : σ} (hm : HangsIf P (m s)) (hk : ∀ a s', HangsIf P (k a s')) : HangsIf P ((m >>= k) s) := by
  show HangsIf P (M.bind m k s)
  unfold M.bind
  split
  · exact hk _ _
  · rename_i e
    intro s2 e2; cases e2; exact hm _ e
theorem read {g : σ → R α} {k : α → M σ β} {s : σ} (hg : g s = .error .diverge → P) (hk : ∀ a, g s = .ok a → HangsIf P (k a s)) :
    HangsIf P ((M.read g >>= k) s) := by
  show HangsIf P (M.bind (M.read g) k s)
  unfold M.bind M.read
  cases e : g s with
  | ok a => exact hk a e
  | error e' => intro s2 e2; cases e2; exact hg e
theorem onHier {m : M Hier α} {f : Forest T} (hm : HangsIf P (m f.hier)) : HangsIf P (Forest.onHier m f) := by
  unfold Forest.onHier M.zoom
  split
  · nofun
  · rename_i e; intro s2 e2; cases e2; exact hm _ e

end HangsIf

theorem meet_climbs {h : Hier} {x : Nat} : ∀ (F : Nat) (st : Ancestors.St), Hier.ancestorsMeet h x F st = .error .diverge →
    F = 0 ∨ ∃ n nb, st = some n ∧ n ≠ x ∧ h.neighbors n = some nb ∧ Hier.ancestorsMeet h x (F - 1) nb.parent = .error .diverge
  | 0, _, _ => .inl rfl
  | F + 1, none, e => by cases e
  | F + 1, some n, e => by
    refine .inr ?_
    unfold Hier.ancestorsMeet at e
    rw [anc_next_some] at e
    cases hn : h.neighbors n with
    | none => rw [hn] at e; cases e
    | some nb =>
      rw [hn] at e
      dsimp only at e
      split at e
      · cases e
      · rename_i hx; exact ⟨n, nb, rfl, hx, hn, e⟩

theorem meet_endless (hc : Coherent f) {x : Nat} : ∀ (n : Nat) (st : Ancestors.St), (∀ F, Hier.ancestorsMeet f.hier x F st = .error .diverge) →
    ∃ items, pull f.ancestorsNext n st = .ok items ∧ items.length = n ∧ ∀ i ∈ items, ∃ a, i = some a ∧ a ≠ x
  | 0, _, _ => ⟨[], rfl, rfl, nofun⟩
  | n + 1, st, h => by
    obtain hF | ⟨y, nb, rfl, hy, hn, -⟩ := meet_climbs 1 st (h 1)
    · cases hF
    have up : ∀ F, Hier.ancestorsMeet f.hier x F nb.parent = .error .diverge := by
      intro F
      obtain hF | ⟨y', nb', e, _, hn', h'⟩ := meet_climbs (F + 1) (some y) (h (F + 1))
      · cases hF
      · cases e; rw [hn] at hn'; cases hn'; exact h'
    obtain ⟨l, h1, h2, h3⟩ := meet_endless hc n nb.parent up
    have ha : f.isAlive y = true := hc.alive_of hn
    refine ⟨some y :: l, ?_, by simp [h2], fun i hi => ?_⟩
    · have : f.ancestorsNext (some y) = .ok (some y, nb.parent) := by
        unfold Forest.ancestorsNext Forest.emit
        rw [anc_next_some, hn]
        simp [Forest.nodeAt, Forest.node, ha, expect]
      simp [pull, this, h1]
    · rcases List.mem_cons.1 hi with rfl | hi
      · exact ⟨y, rfl, hy⟩
      · exact h3 i hi

theorem transplant_hangs (hc : Coherent f) {x p : Nat} (a b : Option Nat) : HangsIf (EndlessUp f x p) (Hier.transplant x x p a b f.hier) := by
  unfold Hier.transplant
  refine HangsIf.read (fun h => ?_) fun c _ => ?_
  · unfold Hier.wouldMakeCyclicLinks at h
    cases hn : f.hier.neighbors x with
    | none => rw [hn] at h; cases h
    | some nb =>
      rw [hn] at h
      simp only [expect, if_true] at h
      unfold Ancestors.withStart at h
      cases hl : f.hier.isAlive p with
      | false => simp [hl] at h
      | true =>
        simp only [hl, Bool.not_true, Bool.false_eq_true, if_false] at h
        refine ⟨some p, ?_, fun n => meet_endless hc n (some p) fun F => ?_⟩
        · have : f.isAlive p = true := by rw [hc.live]; exact hl
          unfold Forest.ancestorsOrSelf Forest.iterNew Forest.nodeOrPanic Forest.node
          simp [this, expect, Ancestors.withStart, hl]
        · have mono : ∀ (F : Nat) (st : Ancestors.St), Hier.ancestorsMeet f.hier x (F + 1) st = .error .diverge →
              Hier.ancestorsMeet f.hier x F st = .error .diverge := by
            intro F
            induction F with
            | zero => intro st _; rfl
            | succ F ih =>
              intro st h'
              obtain hF | ⟨y, nb, rfl, hy, hn, h2⟩ := meet_climbs _ st h'
              · cases hF
              · unfold Hier.ancestorsMeet
                rw [anc_next_some, hn]
                simp only [hy, if_false]
                exact ih _ h2
          have all : ∀ k, Hier.ancestorsMeet f.hier x (f.hier.loopFuel + k) (some p) = .error .diverge := fun k => by
            rw [ancestorsMeet_fuel]; exact h
          have down : ∀ k F, Hier.ancestorsMeet f.hier x (F + k) (some p) = .error .diverge → Hier.ancestorsMeet f.hier x F (some p) = .error .diverge := by
            intro k
            induction k with
            | zero => intro F h; exact h
            | succ k ih => intro F h; exact ih F (mono _ _ h)
          exact down f.hier.loopFuel F (by rw [Nat.add_comm]; exact all F)
  · cases c with
    | true => exact HangsIf.of nofun
    | false =>
      refine HangsIf.bind (HangsIf.of ?_) fun _ h1 => HangsIf.read nofun fun F hF => HangsIf.of (HaltsM.bind ?_ fun _ h3 =>
        HaltsM.bind ?_ fun _ _ => HaltsM.pure _ _)
      · exact HaltsM.bind (HaltsM.nbrOf _ _ _) fun _ _ => HaltsM.bind (HaltsM.read (Halts.getParent _)) fun _ _ =>
          HaltsM.bind (HaltsM.read (Halts.prevSibling _)) fun _ _ => HaltsM.bind (HaltsM.nbrOf _ _ _) fun _ _ =>
          HaltsM.bind (HaltsM.read (Halts.nextSibling _)) fun _ _ => HaltsM.connectTriangle _ _ _ _
      · cases hF
        show HaltsM (Hier.rewriteParents p x (h1.nbrs.length + 1 + 1) (some x) h1)
        unfold Hier.rewriteParents
        split
        · nofun
        · refine HaltsM.bind (HaltsM.updNbr _ _ _ _) fun _ _ => ?_
          rw [if_pos rfl]
          exact HaltsM.pure _ _
      · unfold Hier.transplantConnect
        have tail : ∀ h, HaltsM ((if b ≠ some x then Hier.connectTriangle (some p) (some x) b else pure () : M Hier Unit) h) := by
          intro h
          split
          · exact HaltsM.connectTriangle _ _ _ _
          · exact HaltsM.pure _ _
        by_cases ha : a ≠ some x
        · simp only [if_pos ha]
          exact HaltsM.bind (HaltsM.connectTriangle _ _ _ _) fun _ h => tail h
        · simp only [if_neg ha]
          exact tail _

theorem grown_neighbors (h : Hier) (nb : Neighbors) {y : Nat} (hy : y ≠ h.nbrs.length) :
    (⟨h.nbrs ++ [nb]⟩ : Hier).neighbors y = h.neighbors y := by
  unfold Hier.neighbors
  rcases Nat.lt_or_gt_of_ne hy with hl | hl
  · rw [List.getElem?_append_left hl]
  · rw [List.getElem?_eq_none (by simp; omega), List.getElem?_eq_none (by omega)]

theorem grown_climb (hc : Coherent f) (d : Option T) (nb : Neighbors) : ∀ (n : Nat) (st : Ancestors.St) (items : List (Option Nat)),
    pull (⟨⟨f.hier.nbrs ++ [nb]⟩, f.data ++ [d]⟩ : Forest T).ancestorsNext n st = .ok items →
    (∀ i ∈ items, ∃ a, i = some a ∧ a ≠ f.hier.nbrs.length) → pull f.ancestorsNext n st = .ok items
  | 0, _, _, h, _ => h
  | n + 1, none, items, h, hi => by
    unfold pull at h
    have e : (⟨⟨f.hier.nbrs ++ [nb]⟩, f.data ++ [d]⟩ : Forest T).ancestorsNext none = .ok (none, none) := rfl
    rw [e] at h
    dsimp only at h
    split at h
    · cases h
    · cases h
      obtain ⟨a, ha, -⟩ := hi none (by simp)
      cases ha
  | n + 1, some y, items, h, hi => by
    unfold pull at h
    unfold Forest.ancestorsNext Forest.emit at h
    rw [anc_next_some] at h
    cases hn : (⟨f.hier.nbrs ++ [nb]⟩ : Hier).neighbors y with
    | none => rw [hn] at h; cases h
    | some nb' =>
      rw [hn] at h
      dsimp only at h
      cases hal : Forest.nodeAt (⟨⟨f.hier.nbrs ++ [nb]⟩, f.data ++ [d]⟩ : Forest T) y with
      | error e => rw [hal] at h; cases h
      | ok z =>
        rw [hal] at h
        dsimp only at h
        split at h
        · cases h
        · rename_i l hl
          cases h
          obtain ⟨a, ha, hne⟩ := hi (some y) (by simp)
          cases ha
          rw [grown_neighbors f.hier nb hne] at hn
          have := grown_climb hc d nb n nb'.parent l hl fun i h => hi i (List.mem_cons_of_mem _ h)
          have e : f.ancestorsNext (some y) = .ok (some y, nb'.parent) := by
            unfold Forest.ancestorsNext Forest.emit
            rw [anc_next_some, hn]
            simp [Forest.nodeAt, Forest.node, hc.alive_of hn, expect]
          simp [pull, e, this]

end Treena
