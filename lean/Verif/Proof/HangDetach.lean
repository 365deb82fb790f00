import Verif.Proof.HangCause
import Verif.Model.Release
/-!
# Why `detach_single` hangs
-/
set_option autoImplicit false

namespace Treena
open Fuel
variable {T : Type} {f : Forest T} {h : Hier}

theorem M.run_read {σ α : Type} (g : σ → R α) (s : σ) : M.read g s = match g s with | .ok a => .ok a s | .error e => .fail e s := rfl

theorem meet_goes {x : Nat} : ∀ (F : Nat) (st : Ancestors.St), Hier.ancestorsMeet h x F st = .error .diverge →
    Goes (follow h Neighbors.parent fun _ => false) F st
  | 0, _, _ => trivial
  | F + 1, st, e => by
    obtain hF | ⟨n, nb, rfl, -, hn, h2⟩ := meet_climbs _ st e
    · cases hF
    · exact ⟨nb.parent, by simp [follow, hn], meet_goes F _ h2⟩

theorem contains_goes {last prev : Nat} : ∀ (F : Nat) (c : Option Nat), Hier.rangeContains h last prev F c = .error .diverge →
    Goes (follow h Neighbors.next fun _ => false) F c
  | 0, _, _ => trivial
  | F + 1, none, e => by cases e
  | F + 1, some n, e => by
    unfold Hier.rangeContains at e
    split at e
    · cases e
    · split at e
      · cases e
      · cases hn : h.neighbors n with
        | none => rw [hn] at e; cases e
        | some nb =>
          rw [hn] at e
          simp only [expect, Neighbors.nextSibling, nbr_live hn] at e
          exact ⟨nb.next, by simp [follow, hn], contains_goes F nb.next (by simpa using e)⟩

theorem range_goes {first last rp iF : Nat} : ∀ (F : Nat) (st : Ancestors.St) (prev : Nat),
    Hier.rangeLoop h first last rp iF F st prev = .error .diverge →
    Goes (follow h Neighbors.parent fun _ => false) F st ∨ Goes (follow h Neighbors.next fun _ => false) iF (some first)
  | 0, _, _, _ => .inl trivial
  | F + 1, none, _, e => by simp [Hier.rangeLoop, Ancestors.next] at e
  | F + 1, some n, prev, e => by
    unfold Hier.rangeLoop at e
    rw [anc_next_some] at e
    cases hn : h.neighbors n with
    | none => rw [hn] at e; cases e
    | some nb =>
      rw [hn] at e
      dsimp only at e
      have up : ∀ p', Hier.rangeLoop h first last rp iF F nb.parent p' = .error .diverge →
          Goes (follow h Neighbors.parent fun _ => false) (F + 1) (some n) ∨ Goes (follow h Neighbors.next fun _ => false) iF (some first) := by
        intro p' e'
        rcases range_goes F nb.parent p' e' with hg | hg
        · exact .inl ⟨nb.parent, by simp [follow, hn], hg⟩
        · exact .inr hg
      split at e
      · exact up _ e
      · cases hc : Hier.rangeContains h last prev iF (some first) with
        | error e' =>
          rw [hc] at e
          simp only [Except.error.injEq] at e
          subst e
          exact .inr (contains_goes _ _ hc)
        | ok b =>
          rw [hc] at e
          cases b with
          | true => cases e
          | false => exact up _ e

theorem NextSame.refl (h : Hier) : NextSame h h := ⟨rfl, fun _ => rfl⟩

theorem rewrite_goes {h : Hier} {parent last : Nat} : ∀ (F : Nat) (o : Option Nat) (h' s : Hier), NextSame h h' →
    Hier.rewriteParents parent last F o h' = .fail .diverge s →
    NextSame h s ∧ Goes (follow h Neighbors.next fun _ => false) F o
  | 0, none, _, _, _, e => by cases e
  | 0, some _, _, _, hs, e => by cases e; exact ⟨hs, trivial⟩
  | F + 1, none, _, _, _, e => by cases e
  | F + 1, some n, h', s, hs, e => by
    by_cases e1 : n = parent
    · simp only [Hier.rewriteParents, e1, if_true] at e
      cases e
    · cases hn : h'.neighbors n with
      | none => simp only [Hier.rewriteParents, e1, if_false, M.run_bind, Hier.updNbr, hn] at e; cases e
      | some nb =>
        by_cases e2 : n = last
        · subst e2
          simp only [Hier.rewriteParents, e1, if_false, if_true, M.run_bind, Hier.updNbr, hn] at e; cases e
        · have hs' := hs.set hn (some parent)
          have hn2 : Hier.neighbors ⟨h'.nbrs.set n { nb with parent := some parent }⟩ n = some { nb with parent := some parent } := by
            unfold Hier.neighbors
            rw [List.getElem?_set_self (nbr_lt hn), Option.filter_some, if_pos]
            have := nbr_live hn; exact this
          have hal := nbr_live hn2
          simp only [Hier.rewriteParents, e1, e2, if_false, M.run_bind, Hier.updNbr, hn, Hier.nbrOf, M.read, hn2,
            expect_some, Neighbors.nextSibling, hal, Bool.not_true, Bool.false_eq_true] at e
          obtain ⟨h1, h2⟩ := rewrite_goes F nb.next _ s hs' e
          refine ⟨h1, nb.next, ?_, h2⟩
          have := hs.2 n
          rw [hn] at this
          simp only [follow, Bool.false_eq_true, if_false, ← this, Option.map_some]

/-- The parent chain from `p`, or the chain of next siblings from `c`, never ends. -/
def EndlessLinks (g : Hier) (p c : Nat) : Prop :=
  (∀ k, Goes (follow g Neighbors.parent fun _ => false) k (some p)) ∨ ∀ k, Goes (follow g Neighbors.next fun _ => false) k (some c)

theorem goes_less {σ : Type} {step : σ → Option σ} {s : σ} {j k : Nat} (hjk : j ≤ k) (h : Goes step k s) : Goes step j s := by
  rw [goes_iff] at h ⊢
  exact fun i hi => h i (by omega)

theorem cyclic_endless {first last p : Nat} (e : h.wouldMakeCyclicLinks first last p = .error .diverge) : EndlessLinks h p first := by
  have hstart : ∀ {st}, Ancestors.withStart p h = .ok st → st = some p := by
    intro st hst
    unfold Ancestors.withStart at hst
    split at hst <;> cases hst
    rfl
  unfold Hier.wouldMakeCyclicLinks at e
  cases hf : h.neighbors first with
  | none => rw [hf] at e; cases e
  | some fnb =>
    rw [hf] at e
    simp only [expect_some] at e
    split at e
    · cases hst : Ancestors.withStart p h with
      | error e' =>
        rw [hst] at e
        cases e
        unfold Ancestors.withStart at hst
        split at hst <;> cases hst
      | ok st =>
        rw [hst] at e
        cases hstart hst
        exact .inl (follow_forever (meet_goes _ _ e))
    · simp only [Neighbors.getParent, nbr_live hf, Bool.not_true, Bool.false_eq_true, if_false] at e
      cases hp : fnb.parent with
      | none => rw [hp] at e; cases e
      | some rp =>
        rw [hp] at e
        simp only [expect_some] at e
        split at e
        · cases e
        · cases hst : Ancestors.withStart p h with
          | error e' =>
            rw [hst] at e
            cases e
            unfold Ancestors.withStart at hst
            split at hst <;> cases hst
          | ok st =>
            rw [hst] at e
            cases hstart hst
            simp only [anc_next_some] at e
            cases hn : h.neighbors p with
            | none => rw [hn] at e; cases e
            | some nb =>
              rw [hn] at e
              simp only [expect_some] at e
              rcases range_goes _ _ _ e with hg | hg
              · have hg' : Goes (follow h Neighbors.parent fun _ => false) (2 * h.loopFuel + 1) (some p) := ⟨nb.parent, by simp [follow, hn], hg⟩
                exact .inl (follow_forever (goes_less (by unfold Hier.loopFuel; omega) hg'))
              · exact .inr (follow_forever (by exact hg))

theorem transplant_endless {first last p : Nat} {a b : Option Nat} {g : Hier} (e : Hier.transplant first last p a b h = .fail .diverge g) :
    EndlessLinks g p first := by
  unfold Hier.transplant at e
  rw [M.run_bind] at e
  simp only [M.read] at e
  cases hc : h.wouldMakeCyclicLinks first last p with
  | error e' =>
    rw [hc] at e
    cases e
    exact cyclic_endless hc
  | ok c =>
    rw [hc] at e
    cases c with
    | true => cases e
    | false =>
      simp only [Bool.false_eq_true, if_false] at e
      rw [M.run_bind] at e
      cases hd : Hier.transplantDisconnect first last h with
      | fail e' s =>
        rw [hd] at e
        cases e
        refine absurd hd ((HaltsM.bind (HaltsM.nbrOf _ _ _) fun _ _ => HaltsM.bind (HaltsM.read (Halts.getParent _)) fun _ _ =>
          HaltsM.bind (HaltsM.read (Halts.prevSibling _)) fun _ _ => HaltsM.bind (HaltsM.nbrOf _ _ _) fun _ _ =>
          HaltsM.bind (HaltsM.read (Halts.nextSibling _)) fun _ _ => HaltsM.connectTriangle _ _ _ _ :
          HaltsM (Hier.transplantDisconnect first last h)) _)
      | ok u h1 =>
        rw [hd] at e
        simp only at e
        rw [M.run_bind] at e
        simp only [M.read] at e
        rw [M.run_bind] at e
        cases hr : Hier.rewriteParents p last h1.loopFuel (some first) h1 with
        | fail e' s =>
          rw [hr] at e
          cases e
          obtain ⟨h2, h3⟩ := rewrite_goes _ _ h1 g (.refl _) hr
          have h4 : ∀ k s, Goes (follow h1 Neighbors.next fun _ => false) k s → Goes (follow g Neighbors.next fun _ => false) k s := by
            intro k
            induction k with
            | zero => intro _ _; trivial
            | succ k ih =>
              rintro s ⟨s', h5, h6⟩
              refine ⟨s', ?_, ih _ h6⟩
              cases s with
              | none => cases h5
              | some n =>
                simp only [follow, Bool.false_eq_true, if_false] at h5 ⊢
                rw [h2.2 n]; exact h5
          exact .inr fun k => h4 k _ (follow_forever (by exact h3) k)
        | ok u h2 =>
          rw [hr] at e
          simp only at e
          rw [M.run_bind] at e
          have hcon : HaltsM (Hier.transplantConnect first last p a b h2) := by
            unfold Hier.transplantConnect
            have tail : ∀ h, HaltsM ((if b ≠ some last then Hier.connectTriangle (some p) (some last) b else pure () : M Hier Unit) h) := by
              intro h
              split
              · exact HaltsM.connectTriangle _ _ _ _
              · exact HaltsM.pure _ _
            by_cases ha : a ≠ some first
            · simp only [if_pos ha]
              exact HaltsM.bind (HaltsM.connectTriangle _ _ _ _) fun _ h => tail h
            · simp only [if_neg ha]
              exact tail _
          cases hk : Hier.transplantConnect first last p a b h2 with
          | fail e' s => rw [hk] at e; cases e; exact absurd hk (hcon _)
          | ok u h3 => rw [hk] at e; cases e

theorem rangeNew_halts (a b : Nat) : Halts (h.rangeNew a b) := by
  unfold Hier.rangeNew Hier.rangeSingle
  ends

theorem rangeNew_fst {a b : Nat} {r : Nat × Nat} (e : h.rangeNew a b = .ok r) : r.1 = a := by
  revert e
  unfold Hier.rangeNew Hier.rangeSingle
  repeat' (first | (intro e; cases e; done) | (intro e; cases e; rfl) | split)

theorem detachSingle_endless {x : Nat} {g : Hier} (e : Hier.detachSingle x h = .fail .diverge g) :
    ∃ nb p c, h.neighbors x = some nb ∧ nb.parent = some p ∧ nb.firstChild = .ok (some c) ∧ EndlessLinks g p c := by
  revert g
  suffices ∀ g, Hier.detachSingle x h = .fail .diverge g →
    ∃ nb p c, h.neighbors x = some nb ∧ nb.parent = some p ∧ nb.firstChild = .ok (some c) ∧ EndlessLinks g p c from fun {g} e => this g e
  intro g e
  unfold Hier.detachSingle at e
  rw [M.run_bind] at e
  simp only [Hier.nbrOf, M.read] at e
  cases hx : h.neighbors x with
  | none => rw [hx] at e; cases e
  | some nb =>
    rw [hx] at e
    simp only [expect_some] at e
    rw [M.run_bind, M.run_read] at e
    cases hfl : nb.firstLastChild h with
    | error e' =>
      rw [hfl] at e
      cases e
      exact absurd hfl (Halts.firstLastChild _)
    | ok fl =>
      rw [hfl] at e
      cases fl with
      | none => exact absurd e (HaltsM.bind (HaltsM.detach _ _) (fun _ _ => HaltsM.pure _ _) _)
      | some fl =>
        obtain ⟨c, l⟩ := fl
        have hfc : nb.firstChild = .ok (some c) := by
          unfold Neighbors.firstLastChild at hfl
          rw [if_neg (by simp [nbr_live hx])] at hfl
          split at hfl
          · cases hfl
          · cases hfl
          · rename_i c' hc'
            split at hfl
            · cases hfl
            · split at hfl <;> cases hfl
              exact hc'
        dsimp only at e
        rw [M.run_bind, M.run_read] at e
        simp only [Neighbors.getParent, nbr_live hx, Bool.not_true, Bool.false_eq_true, if_false] at e
        cases hp : nb.parent with
        | none =>
          rw [hp] at e
          dsimp only at e
          split at e
          · cases e
          · exact absurd e (HaltsM.bind (HaltsM.detach _ _) (fun _ _ => HaltsM.bind (HaltsM.detach _ _) fun _ _ => HaltsM.pure _ _) _)
        | some p =>
          rw [hp] at e
          dsimp only at e
          refine ⟨nb, p, c, rfl, hp, hfc, ?_⟩
          rw [M.run_bind, M.run_read] at e
          cases hpr : nb.prevSibling h with
          | error e' => rw [hpr] at e; cases e; exact absurd hpr (Halts.prevSibling _)
          | ok prev =>
            rw [hpr] at e
            simp only [M.run_bind, M.run_read, Neighbors.nextSibling, nbr_live hx, Bool.not_true, Bool.false_eq_true, if_false] at e
            cases hct : Hier.connectTriangle (some p) prev nb.next h with
            | fail e' s => rw [hct] at e; cases e; exact absurd hct (HaltsM.connectTriangle _ _ _ _ _)
            | ok u h1 =>
              rw [hct] at e
              dsimp only at e
              cases hrn : h1.rangeNew c l with
              | error e' =>
                rw [hrn] at e
                cases e
                exact absurd hrn (rangeNew_halts _ _)
              | ok r =>
                rw [hrn] at e
                dsimp only at e
                rw [rangeNew_fst hrn] at e
                cases ht : Hier.transplant c r.2 p prev nb.next h1 with
                | fail e' s => rw [ht] at e; cases e; exact transplant_endless ht
                | ok res h2 =>
                  rw [ht] at e
                  cases res with
                  | error se => cases e
                  | ok u =>
                    dsimp only at e
                    have tail : HaltsM ((Hier.updNbr x "[precondition] the node must be alive"
                        (fun nb => { nb with parent := none, next := none, prevCyc := some x }) >>= fun _ =>
                        Hier.nbrOf x "[precondition] the node must be alive" >>= fun nb => M.read (fun _ => nb.firstChild) >>= fun fc =>
                        if fc ≠ none then M.panic "[consistency] the children have been transplanted" else pure (.ok ()) :
                        M Hier (Except StructureError Unit)) h2) := by
                      refine HaltsM.bind (HaltsM.updNbr _ _ _ _) fun _ _ => HaltsM.bind (HaltsM.nbrOf _ _ _) fun _ _ =>
                        HaltsM.bind (HaltsM.read (Halts.firstChild _)) fun _ _ => ?_
                      split
                      · nofun
                      · exact HaltsM.pure _ _
                    refine absurd ?_ (tail g)
                    simp only [M.run_bind, M.run_read, Hier.nbrOf]
                    exact e

theorem release_detachSingle_endless {x : Nat} {g : Hier} (e : Release.Hier.detachSingle x h = .fail .diverge g) :
    ∃ nb p c, h.neighbors x = some nb ∧ nb.parent = some p ∧ nb.firstChild = .ok (some c) ∧ EndlessLinks g p c := by
  revert g
  suffices ∀ g, Release.Hier.detachSingle x h = .fail .diverge g →
    ∃ nb p c, h.neighbors x = some nb ∧ nb.parent = some p ∧ nb.firstChild = .ok (some c) ∧ EndlessLinks g p c from fun {g} e => this g e
  intro g e
  unfold Release.Hier.detachSingle at e
  rw [M.run_bind] at e
  simp only [Hier.nbrOf, M.read] at e
  cases hx : h.neighbors x with
  | none => rw [hx] at e; cases e
  | some nb =>
    rw [hx] at e
    simp only [expect_some] at e
    rw [M.run_bind, M.run_read] at e
    cases hfl : nb.firstLastChild h with
    | error e' =>
      rw [hfl] at e
      cases e
      exact absurd hfl (Halts.firstLastChild _)
    | ok fl =>
      rw [hfl] at e
      cases fl with
      | none => exact absurd e (HaltsM.bind (HaltsM.detach _ _) (fun _ _ => HaltsM.pure _ _) _)
      | some fl =>
        obtain ⟨c, l⟩ := fl
        have hfc : nb.firstChild = .ok (some c) := by
          unfold Neighbors.firstLastChild at hfl
          rw [if_neg (by simp [nbr_live hx])] at hfl
          split at hfl
          · cases hfl
          · cases hfl
          · rename_i c' hc'
            split at hfl
            · cases hfl
            · split at hfl <;> cases hfl
              exact hc'
        dsimp only at e
        rw [M.run_bind, M.run_read] at e
        simp only [Neighbors.getParent, nbr_live hx, Bool.not_true, Bool.false_eq_true, if_false] at e
        cases hp : nb.parent with
        | none =>
          rw [hp] at e
          dsimp only at e
          split at e
          · cases e
          · exact absurd e (HaltsM.bind (HaltsM.detach _ _) (fun _ _ => HaltsM.bind (HaltsM.detach _ _) fun _ _ => HaltsM.pure _ _) _)
        | some p =>
          rw [hp] at e
          dsimp only at e
          refine ⟨nb, p, c, rfl, hp, hfc, ?_⟩
          rw [M.run_bind, M.run_read] at e
          cases hpr : nb.prevSibling h with
          | error e' => rw [hpr] at e; cases e; exact absurd hpr (Halts.prevSibling _)
          | ok prev =>
            rw [hpr] at e
            simp only [M.run_bind, M.run_read, Neighbors.nextSibling, nbr_live hx, Bool.not_true, Bool.false_eq_true, if_false] at e
            cases hct : Hier.connectTriangle (some p) prev nb.next h with
            | fail e' s => rw [hct] at e; cases e; exact absurd hct (HaltsM.connectTriangle _ _ _ _ _)
            | ok u h1 =>
              rw [hct] at e
              dsimp only at e
              cases hrn : h1.rangeNew c l with
              | error e' =>
                rw [hrn] at e
                cases e
                exact absurd hrn (rangeNew_halts _ _)
              | ok r =>
                rw [hrn] at e
                dsimp only at e
                rw [rangeNew_fst hrn] at e
                cases ht : Hier.transplant c r.2 p prev nb.next h1 with
                | fail e' s => rw [ht] at e; cases e; exact transplant_endless ht
                | ok res h2 =>
                  rw [ht] at e
                  cases res with
                  | error se => cases e
                  | ok u =>
                    dsimp only at e
                    refine absurd ?_ ((HaltsM.bind (HaltsM.updNbr _ _ _ _) fun _ _ => HaltsM.pure _ _ :
                      HaltsM ((Hier.updNbr x "[precondition] the node must be alive"
                        (fun nb => { nb with parent := none, next := none, prevCyc := some x }) >>= fun _ => pure (.ok ()) :
                        M Hier (Except StructureError Unit)) h2)) g)
                    simp only [M.run_bind]
                    exact e

end Treena
