import Verif.Proof.HangDetach
import Verif.Proof.ReleaseHist
/-!
# Why `remove_hooked_panic_safe` and the allocating traversal hang, in both builds
-/
set_option autoImplicit false

namespace Treena
open Fuel
variable {T S : Type} {f : Forest T}

theorem safe_next_halts (h : Hier) (tr : Safe.St) : Halts (Safe.next h tr) := by
  obtain ⟨nx, r⟩ := tr
  unfold Safe.next
  cases nx with
  | none => nofun
  | some nx =>
    have : Halts (Safe.nextOfNext h r nx) := by unfold Safe.nextOfNext; ends
    dsimp only
    split
    · rename_i e; exact Halts.error this e
    · nofun

/-- If the removal goes on for ever, then the loop descends for ever in the forest as the removal leaves it. -/
theorem removeLoop_left {close : Nat → M (Forest T × S) Unit} (hcl : ClosesOne close) (he : ∀ x p, HaltsM (close x p)) (n : Nat) :
    ∀ (L : Nat) (tr : Safe.St) (p : Forest T × S), p.1.hier.nbrs.length = n →
    p.1.hier.liveCount ≤ L → ∀ F, (L + 1) * (n + 2) ≤ F → ∀ q, Forest.removeLoop close F tr p = .fail .diverge q →
      ∃ tr', ∀ k, Goes (openStep q.1.hier) k tr' := by
  intro L
  induction L using Nat.strong_induction_on with
  | _ L ih =>
    intro tr p hn hL F hF q h
    have hmul : (L + 1) * (n + 2) = L * (n + 2) + (n + 2) := by rw [Nat.add_mul, Nat.one_mul]
    by_cases hg : Goes (openStep p.1.hier) (n + 2) tr
    · rw [← hn] at hg
      have hf := openStep_forever hg
      obtain ⟨tr', h2⟩ := removeLoop_opens close F tr (hf F)
      have h3 := h2 0
      rw [Nat.zero_add] at h3
      rw [h3] at h
      cases h
      exact ⟨tr, hf⟩
    · obtain ⟨j, tr', hj, ht, hr⟩ := removeLoop_first close _ tr hg
      obtain ⟨G, rfl⟩ : ∃ G, F = (G + 1) + j := ⟨F - j - 1, by omega⟩
      rw [hr] at h
      simp only [Forest.removeLoop, M.run_bind, M.read] at h
      cases hnx : Safe.next p.1.hier tr' with
      | error e =>
        rw [hnx] at h
        simp only [Res.fail.injEq] at h
        obtain ⟨rfl, -⟩ := h
        exact absurd hnx (safe_next_halts _ _)
      | ok pr =>
        obtain ⟨ev, tr2⟩ := pr
        rw [hnx] at h
        cases ev with
        | none => cases h
        | some ev =>
          cases ev with
          | opn x => simp [openStep, hnx] at ht
          | cls x =>
            simp only [M.run_bind] at h
            cases hc : close x p with
            | fail e s =>
              rw [hc] at h
              cases h
              exact absurd hc (he x p _)
            | ok u p' =>
              rw [hc] at h
              have hlo := hcl x p p' hc
              have hcnt := hlo.count
              exact ih (L - 1) (by omega) tr2 p' (by rw [hlo.len, hn]) (by omega) G (by
                have : (L - 1 + 1) = L := by omega
                rw [this]
                omega) q h

theorem removeWith_left {close : Nat → M (Forest T × S) Unit} (hcl : ClosesOne close) (he : ∀ x p, HaltsM (close x p)) {x : Nat}
    {p q : Forest T × S} (h : Forest.removeWith close x p = .fail .diverge q) : ∃ c, Endless q.1.firstChildId c := by
  revert h
  unfold Forest.removeWith
  rw [M.run_bind]
  simp only [M.read]
  split
  · nofun
  · rw [M.run_bind]
    cases hd : Forest.onForest (Forest.detach x) p with
    | fail e q' =>
      intro h
      cases h
      unfold Forest.onForest M.zoom at hd
      split at hd
      · cases hd
      · rename_i e'
        cases hd
        exact absurd e' (HaltsM.onHier (HaltsM.detach _ _) _)
    | ok u p =>
      dsimp only
      rw [M.run_bind]
      cases hs : Safe.new x p.1.hier with
      | error e =>
        intro h
        simp only [M.read, hs] at h
        cases h
        unfold Safe.new at hs
        split at hs <;> cases hs
      | ok tr =>
        simp only [M.read, hs]
        rw [M.run_bind]
        intro h
        obtain ⟨tr', h2⟩ := removeLoop_left hcl he _ _ tr p rfl p.1.hier.liveCount_le _ (Nat.le_refl _) q h
        exact opens_endless (.refl _) h2

theorem HaltsM.onForest {α : Type} {m : M (Forest T) α} (p : Forest T × S) (hm : HaltsM (m p.1)) : HaltsM (Forest.onForest (S := S) m p) := by
  unfold Forest.onForest M.zoom
  split
  · nofun
  · rename_i e; intro s2 e2; cases e2; exact hm _ e
theorem HaltsM.callHook (hook : Forest.Hook S T) (d : T) (p : Forest T × S) : HaltsM (Forest.callHook hook d p) := by
  obtain ⟨g, s⟩ := p
  unfold Forest.callHook
  dsimp only
  split <;> nofun
theorem HaltsM.takeData (x : Nat) (f : Forest T) : HaltsM (Forest.takeData x f) := by
  unfold Forest.takeData
  split <;> nofun
theorem HaltsM.makeRemoved (x : Nat) (msg : String) (h : Hier) : HaltsM (Hier.makeRemoved x msg h) := by
  unfold Hier.makeRemoved
  refine HaltsM.bind (HaltsM.nbrOf _ _ _) fun _ _ => HaltsM.bind (HaltsM.read (Halts.isAlone _)) fun _ _ => ?_
  split
  · nofun
  · exact HaltsM.updNbr _ _ _ _

theorem closePanicSafe_ends (hook : Forest.Hook S T) (x : Nat) (p : Forest T × S) : HaltsM (Forest.closePanicSafe hook x p) := by
  refine HaltsM.bind (HaltsM.onForest p ?_) fun d q => HaltsM.callHook _ _ _
  refine HaltsM.bind (HaltsM.onHier (HaltsM.nbrOf _ _ _)) fun _ _ => HaltsM.bind (HaltsM.read (Halts.firstChild _)) fun _ _ => ?_
  split
  · nofun
  refine HaltsM.bind (HaltsM.onHier (HaltsM.detach _ _)) fun _ _ => HaltsM.bind (HaltsM.onHier (HaltsM.nbrOf _ _ _)) fun _ _ =>
    HaltsM.bind (HaltsM.read (Halts.isAlone _)) fun _ _ => ?_
  split
  · nofun
  exact HaltsM.bind (HaltsM.onHier (HaltsM.makeRemoved _ _ _)) fun _ _ => HaltsM.takeData _ _

theorem release_closePanicSafe_ends (hook : Forest.Hook S T) (x : Nat) (p : Forest T × S) :
    HaltsM (Release.Forest.closePanicSafe hook x p) := by
  refine HaltsM.bind (HaltsM.onForest p ?_) fun d q => HaltsM.callHook _ _ _
  refine HaltsM.bind (HaltsM.onHier (HaltsM.detach _ _)) fun _ _ => HaltsM.bind (HaltsM.onHier (HaltsM.nbrOf _ _ _)) fun _ _ => ?_
  exact HaltsM.bind (HaltsM.onHier (HaltsM.makeRemoved _ _ _)) fun _ _ => HaltsM.takeData _ _

theorem release_closePanicSafe_closes (hook : Forest.Hook S T) : ClosesOne (Release.Forest.closePanicSafe hook) := by
  intro x p p' h
  obtain ⟨d, p1, h1, h2⟩ := bind_ok_inv h
  obtain ⟨_, f3, h7, h8⟩ := bind_ok_inv (onForest_ok_inv h1)
  have hdet := Hier.detach_sameLive x p.1.hier
  rw [onHier_ok_inv h7] at hdet
  obtain ⟨nb2, f4, h9, h10⟩ := bind_ok_inv h8
  have e2 : f4.hier = f3.hier := read_ok_inv (onHier_ok_inv h9)
  obtain ⟨_, f6, h13, h14⟩ := bind_ok_inv h10
  rw [callHook_hier h2, takeData_hier h14]
  have h15 := onHier_ok_inv h13
  rcases makeRemoved_cases x "[consistency] the current node must be alive here" f4.hier with ⟨h16, hl⟩ | ⟨e, h16⟩
  · rw [h16] at h15
    injection h15 with _ h15
    rw [← h15]
    rw [e2] at hl ⊢
    exact loses_put hdet hl
  · rw [h16] at h15; cases h15

/-! ### Allocating breadth-first traversal with the depths of a build -/

theorem abft_mach (A : Arith) (hs : ∀ d, Halts (A.succ d)) {h : Hier} : ∀ (F : Nat) (st : ABft.St) (d : Nat),
    (Mach.abftLoop A h F st = .error .diverge → ABft.nextLoop h F { st with depth := d } = .error .diverge) ∧
    ∀ o st', Mach.abftLoop A h F st = .ok (o, st') →
      ∃ o' d', ABft.nextLoop h F { st with depth := d } = .ok (o', { st' with depth := d' })
  | 0, _, _ => ⟨fun _ => rfl, nofun⟩
  | F + 1, st, d => by
    unfold Mach.abftLoop ABft.nextLoop
    obtain ⟨ev, dd⟩ := st
    cases ev with
    | nil => exact ⟨nofun, fun o st' e => by cases e; exact ⟨none, d, rfl⟩⟩
    | cons a rest =>
      cases a with
      | incrementDepth =>
        dsimp only
        split
        · exact ⟨nofun, fun o st' e => by cases e; exact ⟨none, d, rfl⟩⟩
        · cases hd : A.succ dd with
          | error e =>
            refine ⟨fun e' => ?_, nofun⟩
            simp only [Except.error.injEq] at e'
            subst e'
            exact absurd hd (hs _)
          | ok d' => exact abft_mach A hs F { events := rest ++ [.incrementDepth], depth := d' } (d + 1)
      | node id =>
        dsimp only
        cases expect (h.neighbors id) "[consistency] the node to be traversed must be alive" with
        | error e => exact ⟨fun e => e, nofun⟩
        | ok nb =>
          dsimp only
          cases nb.firstChild with
          | error e => exact ⟨fun e => e, nofun⟩
          | ok fc =>
            dsimp only
            cases ABft.pushChildren h h.loopFuel fc rest with
            | error e => exact ⟨fun e => e, nofun⟩
            | ok q => exact ⟨nofun, fun o st' e => by cases e; exact ⟨_, d, rfl⟩⟩

theorem abft_mach_pull (A : Arith) (hs : ∀ d, Halts (A.succ d)) : ∀ (n : Nat) (st : ABft.St), OneMark st →
    pull (Mach.allocatingNext A f) n st = .error .diverge → ∃ y, EndlessKids f y
  | 0, _, _, h => by cases h
  | n + 1, st, hm, h => by
    obtain ⟨h1, h2⟩ := abft_next_cause (f := f) hm
    obtain ⟨h3, h4⟩ := abft_mach A hs (h := f.hier) (st.events.length + 2) st st.depth
    unfold pull Mach.allocatingNext Forest.emit at h
    cases hn : Mach.abftNext A f.hier st with
    | error e =>
      rw [hn] at h
      simp only [Except.error.injEq] at h
      subst h
      exact h1 (h3 hn)
    | ok p =>
      obtain ⟨o, st'⟩ := p
      obtain ⟨o', d', h5⟩ := h4 o st' hn
      have hm2 : OneMark { st' with depth := d' } := h2 o' _ h5
      have hm' : OneMark st' := hm2
      rw [hn] at h
      cases o with
      | none =>
        dsimp only at h
        split at h
        · rename_i e he
          simp only [Except.error.injEq] at h
          subst h
          exact abft_mach_pull A hs n st' hm' he
        · cases h
      | some i =>
        dsimp only at h
        cases ha : f.nodeAt i.1 with
        | error e =>
          rw [ha] at h
          simp only [Except.error.injEq] at h
          subst h
          exact absurd ha (Halts.nodeAt _)
        | ok z =>
          rw [ha] at h
          dsimp only at h
          split at h
          · rename_i e he
            simp only [Except.error.injEq] at h
            subst h
            exact abft_mach_pull A hs n st' hm' he
          · cases h

end Treena
