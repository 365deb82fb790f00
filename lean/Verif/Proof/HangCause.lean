import Verif.Proof.HangWhy
import Verif.Proof.FuelMut
import Verif.Proof.FuelPrint
/-!
# Why a traversal, a removal or printing hangs
-/
set_option autoImplicit false

namespace Treena
open Fuel DebugPrint
variable {T S : Type} {f : Forest T} {cap um : Nat}

theorem goes_stream {σ : Type} {step : σ → Option σ} {s : σ} (h : ∀ k, Goes step k s) (n : Nat) :
    step ((adv step)^[n] s) = some ((adv step)^[n + 1] s) := (goes_iff step (n + 1) s).1 (h (n + 1)) n (by omega)

/-- Links followed for ever. -/
theorem follow_endless {h : Hier} {lk : Neighbors → Option Nat} {step : Nat → R (Option Nat)}
    (hstep : ∀ n nb, h.neighbors n = some nb → step n = .ok (lk nb)) {c : Nat} (hg : ∀ k, Goes (follow h lk fun _ => false) k (some c)) :
    Endless step c := by
  have hs := goes_stream hg
  have hsome : ∀ n, ∃ x, (adv (follow h lk fun _ => false))^[n] (some c) = some x := by
    intro n
    obtain ⟨x, hx, -⟩ := follow_lt (hs n)
    exact ⟨x, hx⟩
  refine ⟨fun n => ((adv (follow h lk fun _ => false))^[n] (some c)).getD 0, rfl, fun n => ?_⟩
  obtain ⟨x, hx⟩ := hsome n
  obtain ⟨y, hy⟩ := hsome (n + 1)
  have := hs n
  rw [hx, hy] at this
  simp only [follow, Bool.false_eq_true, if_false] at this
  obtain ⟨nb, h1, h2⟩ := Option.map_eq_some_iff.1 this
  simp only [hx, hy, Option.getD_some]
  rw [hstep x nb h1, h2]

theorem follow_forever {h : Hier} {lk : Neighbors → Option Nat} {s : Option Nat} (hg : Goes (follow h lk fun _ => false) (h.nbrs.length + 2) s) (k : Nat) :
    Goes (follow h lk fun _ => false) k s := by
  refine goes_forever (fun _ => True) (fun _ _ _ _ => trivial) (N := h.nbrs.length) (fun o => o.getD 0) ?_ ?_ trivial hg k
  · intro s s' _ _ hs _
    obtain ⟨n, rfl, hn⟩ := follow_lt hs
    exact hn
  · intro s s' _ t t' _ _ _ hs _ ht _ e
    obtain ⟨n, rfl, hn⟩ := follow_lt hs
    obtain ⟨m, rfl, hm⟩ := follow_lt ht
    simpa using e

/-! ### Allocating breadth-first traversal -/

theorem push_goes {h : Hier} : ∀ (F : Nat) (c : Option Nat) (q : List ABft.QEv), ABft.pushChildren h F c q = .error .diverge →
    Goes (follow h Neighbors.next fun _ => false) F c
  | 0, _, _, _ => trivial
  | F + 1, none, q, e => by cases e
  | F + 1, some n, q, e => by
    unfold ABft.pushChildren at e
    cases hn : h.neighbors n with
    | none => rw [hn] at e; cases e
    | some nb =>
      rw [hn] at e
      simp only [expect, Neighbors.nextSibling, nbr_live hn, if_true] at e
      exact ⟨nb.next, by simp [follow, hn], push_goes F nb.next _ (by simpa using e)⟩

theorem push_hangs {c : Nat} (h : Endless f.nextSiblingId c) : ∀ (F : Nat) (q : List ABft.QEv),
    ABft.pushChildren f.hier F (some c) q = .error .diverge := by
  obtain ⟨s, h0, hs⟩ := h
  have key : ∀ (F i : Nat) (q : List ABft.QEv), ABft.pushChildren f.hier F (some (s i)) q = .error .diverge := by
    intro F
    induction F with
    | zero => intro _ _; rfl
    | succ F ih =>
      intro i q
      have := hs i
      unfold Forest.nextSiblingId Forest.nbr at this
      cases hn : f.hier.neighbors (s i) with
      | none => rw [hn] at this; cases this
      | some nb =>
        rw [hn] at this
        simp only [expect] at this
        unfold ABft.pushChildren
        simp only [hn, expect, this]
        exact ih (i + 1) _
  intro F q
  have := key F 0 q
  rwa [h0] at this

theorem next_step (n : Nat) (nb : Neighbors) (h : f.hier.neighbors n = some nb) : f.nextSiblingId n = .ok nb.next := by
  unfold Forest.nextSiblingId Forest.nbr
  simp [h, expect, Neighbors.nextSibling, nbr_live h]

theorem first_step (n : Nat) (nb : Neighbors) (h : f.hier.neighbors n = some nb) : f.firstChildId n = nb.firstChild := by
  unfold Forest.firstChildId Forest.nbr
  simp [h, expect]

/-- The children of some node go on for ever. -/
def EndlessKids (f : Forest T) (x : Nat) : Prop := ∃ c, f.firstChildId x = .ok (some c) ∧ Endless f.nextSiblingId c

/-- There is at most one mark in the queue. -/
def OneMark (st : ABft.St) : Prop := st.events.count .incrementDepth ≤ 1

theorem push_marks {h : Hier} : ∀ (F : Nat) (c : Option Nat) (q q' : List ABft.QEv), ABft.pushChildren h F c q = .ok q' →
    q'.count .incrementDepth = q.count .incrementDepth
  | 0, none, q, q', e => by cases e; rfl
  | F + 1, none, q, q', e => by cases e; rfl
  | 0, some _, q, q', e => by cases e
  | F + 1, some n, q, q', e => by
    unfold ABft.pushChildren at e
    split at e
    · cases e
    · split at e
      · cases e
      · have := push_marks F _ _ q' e
        simpa [List.count_append] using this

theorem abft_node {st : ABft.St} {id : Nat} {rest : List ABft.QEv} (he : st.events = .node id :: rest) {F : Nat} :
    (ABft.nextLoop f.hier (F + 1) st = .error .diverge ↔ EndlessKids f id) ∧
    ∀ o st', ABft.nextLoop f.hier (F + 1) st = .ok (o, st') → OneMark st → OneMark st' := by
  unfold ABft.nextLoop
  simp only [he]
  cases hn : f.hier.neighbors id with
  | none =>
    refine ⟨⟨nofun, ?_⟩, nofun⟩
    rintro ⟨c, h1, -⟩
    unfold Forest.firstChildId Forest.nbr at h1
    rw [hn] at h1; cases h1
  | some nb =>
    have hfc := first_step id nb hn
    simp only [expect]
    cases hf : nb.firstChild with
    | error e =>
      refine ⟨⟨fun e' => ?_, ?_⟩, nofun⟩
      · simp only [Except.error.injEq] at e'
        subst e'
        exact absurd hf (Halts.firstChild nb)
      · rintro ⟨c, h1, -⟩
        rw [hfc, hf] at h1; cases h1
    | ok fc =>
      dsimp only
      cases hp : ABft.pushChildren f.hier f.hier.loopFuel fc rest with
      | error e =>
        refine ⟨⟨fun e' => ?_, fun hk => ?_⟩, nofun⟩
        · simp only [Except.error.injEq] at e'
          subst e'
          cases fc with
          | none => unfold ABft.pushChildren at hp; cases hp
          | some c =>
            exact ⟨c, by rw [hfc, hf], follow_endless next_step fun k => follow_forever (push_goes _ _ _ hp) k⟩
        · obtain ⟨c, h1, h2⟩ := hk
          rw [hfc, hf] at h1
          cases h1
          rw [push_hangs h2] at hp
          cases hp
          rfl
      | ok q =>
        refine ⟨⟨nofun, fun hk => ?_⟩, fun o st' e hm => ?_⟩
        · obtain ⟨c, h1, h2⟩ := hk
          rw [hfc, hf] at h1
          cases h1
          rw [push_hangs h2] at hp
          cases hp
        · cases e
          unfold OneMark at hm ⊢
          rw [he] at hm
          have := push_marks _ _ _ _ hp
          simp only [List.count_cons] at hm
          simp only [this]
          omega

/-- A step of an `AllocatingBreadthFirstTraverse` hangs only if the children of the node it would yield go on for ever. -/
theorem abft_next_cause {st : ABft.St} (hm : OneMark st) : (ABft.next f.hier st = .error .diverge → ∃ y, EndlessKids f y) ∧
    ∀ o st', ABft.next f.hier st = .ok (o, st') → OneMark st' := by
  unfold ABft.next
  cases he : st.events with
  | nil =>
    rw [ABft.nextLoop]
    simp only [he]
    exact ⟨nofun, fun o st' e => by cases e; exact hm⟩
  | cons a rest =>
    cases a with
    | node id =>
      have := abft_node (f := f) he (F := rest.length + 2)
      exact ⟨fun e => ⟨id, this.1.1 e⟩, fun o st' e => this.2 o st' e hm⟩
    | incrementDepth =>
      rw [List.length_cons, ABft.nextLoop]
      simp only [he]
      have hr : rest.count .incrementDepth = 0 := by
        unfold OneMark at hm
        rw [he] at hm
        simp only [List.count_cons, beq_self_eq_true, if_true] at hm
        omega
      cases rest with
      | nil => exact ⟨nofun, fun o st' e => by cases e; simp [OneMark]⟩
      | cons b rest' =>
        cases b with
        | incrementDepth => simp at hr
        | node id =>
          simp only [List.isEmpty_cons, Bool.false_eq_true, if_false]
          have := abft_node (f := f) (st := { events := .node id :: rest' ++ [.incrementDepth], depth := st.depth + 1 }) rfl (F := rest'.length + 1)
          refine ⟨fun e => ⟨id, this.1.1 e⟩, fun o st' e => this.2 o st' e ?_⟩
          simp only [OneMark, List.cons_append, List.count_cons, List.count_append]
          simp only [List.count_cons] at hr
          simp
          omega

theorem abft_pull : ∀ (n : Nat) (st : ABft.St), OneMark st → pull f.abftNext n st = .error .diverge → ∃ y, EndlessKids f y
  | 0, _, _, h => by cases h
  | n + 1, st, hm, h => by
    obtain ⟨h1, h2⟩ := abft_next_cause (f := f) hm
    unfold pull Forest.abftNext Forest.emit at h
    cases hn : ABft.next f.hier st with
    | error e =>
      rw [hn] at h
      simp only [Except.error.injEq] at h
      subst h
      exact h1 hn
    | ok p =>
      obtain ⟨o, st'⟩ := p
      have hm' := h2 o st' hn
      rw [hn] at h
      cases o with
      | none =>
        dsimp only at h
        split at h
        · rename_i e he
          simp only [Except.error.injEq] at h
          subst h
          exact abft_pull n st' hm' he
        · cases h
      | some i =>
        dsimp only at h
        cases ha : f.nodeAt i.1 with
        | error e =>
          rw [ha] at h
          simp only [Except.error.injEq] at h
          subst h
          exact absurd ha (Halts.nodeAt _)
        | ok z =>
          rw [ha] at h
          dsimp only at h
          split at h
          · rename_i e he
            simp only [Except.error.injEq] at h
            subst h
            exact abft_pull n st' hm' he
          · cases h

/-! ### Removal -/

/-- Killing nodes leaves the other records as they are. -/
def Hier.Kills (h h' : Hier) : Prop := h'.nbrs.length = h.nbrs.length ∧ ∀ y nb, h'.neighbors y = some nb → h.neighbors y = some nb

theorem Hier.Kills.refl (h : Hier) : h.Kills h := ⟨rfl, fun _ _ e => e⟩
theorem Hier.Kills.trans {h h' h'' : Hier} (a : h.Kills h') (b : h'.Kills h'') : h.Kills h'' :=
  ⟨b.1.trans a.1, fun y nb e => a.2 y nb (b.2 y nb e)⟩

theorem closeForce_kills (hook : Forest.Hook S T) {x : Nat} {p p' : Forest T × S} (h : Forest.closeForce hook x p = .ok () p') :
    p.1.hier.Kills p'.1.hier := by
  obtain ⟨d, p1, h1, h2⟩ := bind_ok_inv h
  obtain ⟨_, f1, h3, h4⟩ := bind_ok_inv (onForest_ok_inv h1)
  rw [callHook_hier h2, takeData_hier h4]
  have h5 := onHier_ok_inv h3
  rcases forceMakeRemoved_cases x "[consistency] the current node must be alive here" p.1.hier with ⟨h6, hl⟩ | ⟨e, h6⟩
  · rw [h6] at h5
    injection h5 with _ h5
    rw [← h5]
    refine ⟨by simp [Hier.put], fun y nb e => ?_⟩
    unfold Hier.neighbors Hier.put at e
    by_cases hxy : x = y
    · subst hxy
      have hlt := Hier.live_lt hl
      simp only [List.getElem?_set_self hlt, Neighbors.removed, Neighbors.isAlive, Option.isSome_none, Bool.false_eq_true, if_false] at e
      cases e
    · unfold Hier.neighbors
      simpa [List.getElem?_set, hxy] using e
  · rw [h6] at h5; cases h5

theorem closeForce_ends (hook : Forest.Hook S T) (x : Nat) (p : Forest T × S) : HaltsM (Forest.closeForce hook x p) := by
  have zoom : ∀ {α : Type} {m : M (Forest T) α} (p : Forest T × S), HaltsM (m p.1) → HaltsM (Forest.onForest (S := S) m p) := by
    intro α m p hm
    unfold Forest.onForest M.zoom
    split
    · nofun
    · rename_i e; intro s2 e2; cases e2; exact hm _ e
  refine HaltsM.bind (zoom p (HaltsM.bind (HaltsM.onHier (HaltsM.updNbr _ _ _ _)) fun _ g => ?_)) fun d q => ?_
  · unfold Forest.takeData
    split <;> nofun
  · obtain ⟨g, s⟩ := q
    unfold Forest.callHook
    dsimp only
    split <;> nofun

theorem openStep_nbr {h : Hier} {tr tr' : Safe.St} {x y : Nat} (hs : openStep h tr = some tr') (hx : tr.next = some (.opn x)) (hy : tr'.next = some (.opn y)) :
    ∃ nb, h.neighbors x = some nb ∧ nb.firstChild = .ok (some y) := by
  obtain ⟨x', hn, hx', -, -⟩ := openStep_eq hs
  rw [hx] at hx'
  cases hx'
  obtain ⟨nx, r⟩ := tr
  simp only at hx
  subst hx
  unfold Safe.next at hn
  simp only at hn
  cases hnn : Safe.nextOfNext h r (.opn x) with
  | error e => rw [hnn] at hn; cases hn
  | ok nn =>
    rw [hnn] at hn
    cases hn
    simp only at hy
    subst hy
    simp only [Safe.nextOfNext, reduceCtorEq, if_false] at hnn
    cases hnb : h.neighbors x with
    | none => rw [hnb] at hnn; simp [expect] at hnn
    | some nb =>
      rw [hnb] at hnn
      refine ⟨nb, rfl, ?_⟩
      simp only [expect] at hnn
      cases hf : nb.firstChild with
      | error e => rw [hf] at hnn; cases hnn
      | ok o =>
        rw [hf] at hnn
        cases o with
        | none => cases hnn
        | some c => cases hnn; rfl

/-- If the removal goes on for ever, the loop descends for ever in what is left. -/
theorem removeLoop_hangs (hook : Forest.Hook S T) (n : Nat) : ∀ (L : Nat) (tr : Safe.St) (p : Forest T × S), p.1.hier.nbrs.length = n →
    p.1.hier.liveCount ≤ L → ∀ F, (L + 1) * (n + 2) ≤ F → ∀ q, Forest.removeLoop (Forest.closeForce hook) F tr p = .fail .diverge q →
      ∃ h' tr', p.1.hier.Kills h' ∧ ∀ k, Goes (openStep h') k tr' := by
  intro L
  induction L using Nat.strong_induction_on with
  | _ L ih =>
    intro tr p hn hL F hF q h
    have hmul : (L + 1) * (n + 2) = L * (n + 2) + (n + 2) := by rw [Nat.add_mul, Nat.one_mul]
    by_cases hg : Goes (openStep p.1.hier) (n + 2) tr
    · rw [← hn] at hg
      exact ⟨p.1.hier, tr, .refl _, openStep_forever hg⟩
    · obtain ⟨j, tr', hj, ht, hr⟩ := removeLoop_first (Forest.closeForce hook) _ tr hg
      obtain ⟨G, rfl⟩ : ∃ G, F = (G + 1) + j := ⟨F - j - 1, by omega⟩
      rw [hr] at h
      simp only [Forest.removeLoop, M.run_bind, M.read] at h
      cases hnx : Safe.next p.1.hier tr' with
      | error e =>
        rw [hnx] at h
        simp only [Res.fail.injEq] at h
        exfalso
        obtain ⟨rfl, -⟩ := h
        revert hnx
        obtain ⟨nx, r⟩ := tr'
        unfold Safe.next
        cases nx with
        | none => nofun
        | some nx =>
          dsimp only
          cases he : Safe.nextOfNext p.1.hier r nx with
          | ok a => nofun
          | error e =>
            intro e'
            simp only [Except.error.injEq] at e'
            subst e'
            revert he
            unfold Safe.nextOfNext
            cases nx with
            | opn id =>
              simp only [reduceCtorEq, if_false]
              cases p.1.hier.neighbors id with
              | none => nofun
              | some nb =>
                simp only [expect]
                cases hf : nb.firstChild with
                | error e => intro e'; simp only [Except.error.injEq] at e'; subst e'; exact absurd hf (Halts.firstChild nb)
                | ok o => cases o <;> nofun
            | cls id =>
              split
              · nofun
              · dsimp only
                cases p.1.hier.neighbors id with
                | none => nofun
                | some nb =>
                  simp only [expect]
                  cases hf : nb.nextSibling with
                  | error e => intro e'; simp only [Except.error.injEq] at e'; subst e'; exact absurd hf (Halts.nextSibling nb)
                  | ok o =>
                    cases o with
                    | some s => nofun
                    | none =>
                      dsimp only
                      split
                      · nofun
                      · cases hf : nb.getParent with
                        | error e => intro e'; simp only [Except.error.injEq] at e'; subst e'; exact absurd hf (Halts.getParent nb)
                        | ok o => cases o <;> nofun
      | ok pr =>
        obtain ⟨ev, tr2⟩ := pr
        rw [hnx] at h
        cases ev with
        | none => cases h
        | some ev =>
          cases ev with
          | opn x => simp [openStep, hnx] at ht
          | cls x =>
            simp only [M.run_bind] at h
            cases hcl : Forest.closeForce hook x p with
            | fail e s =>
              rw [hcl] at h
              cases h
              exact absurd hcl (closeForce_ends hook x p _)
            | ok u p' =>
              rw [hcl] at h
              have hlo := closeForce_closes hook x p p' hcl
              have hk := closeForce_kills hook hcl
              have hcnt := hlo.count
              have h1 : p'.1.hier.liveCount < L := by omega
              obtain ⟨h', tr3, h2, h3⟩ := ih (L - 1) (by omega) tr2 p' (by rw [hlo.len, hn]) (by omega) G (by
                have : (L - 1 + 1) = L := by omega
                rw [this]
                omega) q h
              exact ⟨h', tr3, hk.trans h2, h3⟩

theorem opens_endless {h : Hier} {tr : Safe.St} (hk : f.hier.Kills h) (hg : ∀ k, Goes (openStep h) k tr) : ∃ c, Endless f.firstChildId c := by
  have hs := goes_stream hg
  have hx : ∀ n, ∃ x, ((adv (openStep h))^[n] tr).next = some (.opn x) := by
    intro n
    obtain ⟨x, -, hx, -⟩ := openStep_eq (hs n)
    exact ⟨x, hx⟩
  choose s hx using hx
  refine ⟨s 0, s, rfl, fun n => ?_⟩
  obtain ⟨nb, h1, h2⟩ := openStep_nbr (hs n) (hx n) (hx (n + 1))
  rw [first_step _ nb (hk.2 _ _ h1)]
  exact h2

/-! ### Printing -/

theorem walk_endless (hc : Coherent f) {disp : T → Fmt} : ∀ (n : Nat) (st : Dft.St) (k : Nat), PrintsOn disp f st k →
    ∃ items, pull f.dftNext n st = .ok items ∧ items.length = n ∧ ∀ i ∈ items, ∃ e, i = some e
  | 0, _, _, _ => ⟨[], rfl, rfl, nofun⟩
  | n + 1, st, k, h => by
    obtain ⟨s', h1, s'', h2, -⟩ := h 2
    obtain ⟨e, hn⟩ := evStep_next (cstep_fst h1)
    have hon : PrintsOn disp f s'.1 s'.2 := by
      intro m
      obtain ⟨s2, h3, h4⟩ := h (m + 1)
      rw [h1] at h3
      cases h3
      exact h4
    obtain ⟨l, h5, h6, h7⟩ := walk_endless hc n s'.1 s'.2 hon
    obtain ⟨b, hst, hcase⟩ := dft_event hn
    rcases hcase with ⟨-, h0⟩ | ⟨-, ⟨nb, hnb⟩, -⟩
    · have := cstep_fst h2
      rw [h0] at this; cases this
    · refine ⟨some e :: l, ?_, by simp [h6], fun i hi => ?_⟩
      · have ha := hc.alive_of hnb
        have hn' : Dft.next f.hier st = .ok (some e, s'.1) := hn
        have : f.dftNext st = .ok (some e, s'.1) := by
          unfold Forest.dftNext Forest.emit
          rw [hn']
          simp [Forest.nodeAt, Forest.node, ha, expect]
        simp [pull, this, h5]
      · rcases List.mem_cons.1 hi with rfl | hi
        · exact ⟨e, rfl⟩
        · exact h7 i hi

end Treena
