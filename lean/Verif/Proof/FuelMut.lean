import Verif.Proof.FuelLoops
import Verif.Proof.History
import Mathlib.Data.Finset.Card
import Mathlib.Tactic.Linarith
/-!
# Enough fuel: the loops that change the forest

`Same r r'`: the same result; if the loop runs out of fuel with `r`, then also with `r'` (the state at that point has
no meaning, for the program is still running). -/
set_option autoImplicit false

namespace Treena
open Fuel

/-- Equal, or both still running. -/
def Res.Same {σ α : Type} (r r' : Res σ α) : Prop :=
  r = r' ∨ (∃ s, r = .fail .diverge s) ∧ ∃ s, r' = .fail .diverge s

theorem Res.Same.refl {σ α : Type} (r : Res σ α) : r.Same r := .inl rfl

/-- The records of the two hierarchies differ in `parent` only. -/
def NextSame (h h' : Hier) : Prop :=
  h'.nbrs.length = h.nbrs.length ∧ ∀ n, (h'.neighbors n).map Neighbors.next = (h.neighbors n).map Neighbors.next

theorem NextSame.set {h h' : Hier} (hs : NextSame h h') {n : Nat} {nb : Neighbors} (hn : h'.neighbors n = some nb)
    (p : Option Nat) : NextSame h ⟨h'.nbrs.set n { nb with parent := p }⟩ := by
  refine ⟨by simpa using hs.1, fun m => ?_⟩
  rw [← hs.2 m]
  have hlt := nbr_lt hn
  have hal := nbr_live hn
  by_cases e : n = m
  · subst e
    rw [hn]
    unfold Hier.neighbors
    rw [List.getElem?_set_self hlt]
    simp only [Option.map_some]
    rw [Option.filter_some, if_pos]
    · rfl
    · exact hal
  · unfold Hier.neighbors
    rw [List.getElem?_set_ne e]

theorem rewriteParents_rounds {h : Hier} (parent last : Nat) : ∀ (F : Nat) (o : Option Nat) (h' : Hier), NextSame h h' →
    (Goes (follow h Neighbors.next fun n => n = parent || n = last) F o) ∨
      ∀ j, Hier.rewriteParents parent last (F + j) o h' = Hier.rewriteParents parent last F o h'
  | 0, _, _, _ => .inl trivial
  | F + 1, none, h', _ => .inr fun j => by
      rw [show F + 1 + j = (F + j) + 1 by omega]; rfl
  | F + 1, some n, h', hs => by
      by_cases e1 : n = parent
      · right; intro j
        rw [show F + 1 + j = (F + j) + 1 by omega]
        simp only [Hier.rewriteParents, e1, if_true]
      · cases hn : h'.neighbors n with
        | none =>
          right; intro j
          rw [show F + 1 + j = (F + j) + 1 by omega]
          simp only [Hier.rewriteParents, e1, if_false, M.run_bind, Hier.updNbr, hn]
        | some nb =>
          by_cases e2 : n = last
          · right; intro j
            rw [show F + 1 + j = (F + j) + 1 by omega]
            simp only [Hier.rewriteParents, if_false, e2, if_true]
          · have hs' := hs.set hn (some parent)
            have hrun : ∀ k, Hier.rewriteParents parent last (k + 1) (some n) h' =
                Hier.rewriteParents parent last k nb.next ⟨h'.nbrs.set n { nb with parent := some parent }⟩ := by
              intro k
              have hn2 : Hier.neighbors ⟨h'.nbrs.set n { nb with parent := some parent }⟩ n =
                  some { nb with parent := some parent } := by
                unfold Hier.neighbors
                rw [List.getElem?_set_self (nbr_lt hn), Option.filter_some, if_pos]
                have := nbr_live hn; exact this
              have hal := nbr_live hn2
              simp only [Hier.rewriteParents, e1, e2, if_false, M.run_bind, Hier.updNbr, hn, Hier.nbrOf, M.read, hn2,
                expect_some, Neighbors.nextSibling, hal, Bool.not_true, Bool.false_eq_true]
            rcases rewriteParents_rounds parent last F nb.next _ hs' with hg | hg
            · left
              refine ⟨nb.next, ?_, hg⟩
              have := hs.2 n
              rw [hn] at this
              simp only [follow, e1, e2, decide_false, Bool.or_self, Bool.false_eq_true, if_false, ← this, Option.map_some]
            · right; intro j
              rw [show F + 1 + j = (F + j) + 1 by omega, hrun, hrun]
              exact hg j

theorem rewriteParents_diverge {h : Hier} (parent last : Nat) : ∀ (F : Nat) (o : Option Nat) (h' : Hier), NextSame h h' →
    Goes (follow h Neighbors.next fun n => n = parent || n = last) (F + 1) o →
      ∃ s, Hier.rewriteParents parent last F o h' = .fail .diverge s
  | _, none, _, _, ⟨_, hst, _⟩ => by simp [follow] at hst
  | 0, some n, h', _, _ => ⟨h', rfl⟩
  | F + 1, some n, h', hs, ⟨o', hst, hg⟩ => by
      simp only [follow] at hst
      split at hst
      · cases hst
      · next hstop =>
        simp only [Bool.or_eq_true, decide_eq_true_eq, not_or] at hstop
        rw [← hs.2 n] at hst
        obtain ⟨nb, hn, rfl⟩ := Option.map_eq_some_iff.1 hst
        have hn2 : Hier.neighbors ⟨h'.nbrs.set n { nb with parent := some parent }⟩ n =
            some { nb with parent := some parent } := by
          unfold Hier.neighbors
          rw [List.getElem?_set_self (nbr_lt hn), Option.filter_some, if_pos]
          have := nbr_live hn; exact this
        have hal := nbr_live hn2
        have := rewriteParents_diverge parent last F nb.next _ (hs.set hn (some parent)) hg
        simpa only [Hier.rewriteParents, hstop.1, hstop.2, if_false, M.run_bind, Hier.updNbr, hn, Hier.nbrOf, M.read, hn2,
                expect_some, Neighbors.nextSibling, hal, Bool.not_true, Bool.false_eq_true] using this

theorem rewriteParents_fuel (h : Hier) (parent last : Nat) (o : Option Nat) (k : Nat) :
    (Hier.rewriteParents parent last h.loopFuel o h).Same (Hier.rewriteParents parent last (h.loopFuel + k) o h) := by
  have hrefl : NextSame h h := ⟨rfl, fun _ => rfl⟩
  rcases rewriteParents_rounds parent last h.loopFuel o h hrefl with hg | hg
  · right
    have hfor : ∀ k, Goes (follow h Neighbors.next fun n => n = parent || n = last) k o :=
      goes_forever (fun _ => True) (fun _ _ _ _ => trivial) (N := h.nbrs.length) (fun o => o.getD 0)
        (fun s s' _ _ hs _ => by obtain ⟨n, rfl, hn⟩ := follow_lt hs; exact hn)
        (fun s s' _ t t' _ _ _ hs _ ht _ e => by
          obtain ⟨n, rfl, hn⟩ := follow_lt hs
          obtain ⟨m, rfl, hm⟩ := follow_lt ht
          simpa using e) trivial hg
    exact ⟨rewriteParents_diverge parent last _ o h hrefl (hfor _), rewriteParents_diverge parent last _ o h hrefl (hfor _)⟩
  · exact .inl (hg k).symm

/-! ### The removal loops -/

/-- Number of live nodes. -/
def Hier.liveCount (h : Hier) : Nat := ((Finset.range h.nbrs.length).filter fun x => h.isAlive x = true).card

theorem Hier.liveCount_le (h : Hier) : h.liveCount ≤ h.nbrs.length := by
  have := Finset.card_filter_le (Finset.range h.nbrs.length) fun x => h.isAlive x = true
  simpa [Hier.liveCount] using this

/-- The node was live before and is dead after; nothing else came to life. -/
structure Hier.Loses (h : Hier) (x : Nat) (h' : Hier) : Prop where
  len : h'.nbrs.length = h.nbrs.length
  sub : ∀ y, h'.isAlive y = true → h.isAlive y = true
  before : h.isAlive x = true
  after : h'.isAlive x = false

theorem Hier.Loses.count {h h' : Hier} {x : Nat} (hl : h.Loses x h') : h'.liveCount < h.liveCount := by
  unfold Hier.liveCount
  apply Finset.card_lt_card
  rw [hl.len]
  refine ⟨fun y hy => ?_, fun hsub => ?_⟩
  · rw [Finset.mem_filter] at hy ⊢
    exact ⟨hy.1, hl.sub y hy.2⟩
  · have hx : x < h.nbrs.length := by
      have hb := hl.before
      rw [Hier.isAlive_eq] at hb
      exact Hier.live_lt hb
    have := hsub (Finset.mem_filter.2 ⟨Finset.mem_range.2 hx, hl.before⟩)
    have := (Finset.mem_filter.1 this).2
    rw [hl.after] at this; cases this

theorem loses_put {h h' : Hier} {x : Nat} (hs : Hier.SameLive h h') (hx : h'.live x) :
    h.Loses x (h'.put x Neighbors.removed) := by
  have hlt := Hier.live_lt hx
  refine ⟨by simpa using hs.len, fun y hy => ?_, ?_, ?_⟩
  · rw [← hs.live]
    rw [Hier.isAlive_eq, Hier.get_put hlt] at hy
    split at hy
    · cases hy
    · rwa [Hier.isAlive_eq]
  · rw [← hs.live, Hier.isAlive_eq]; exact hx
  · rw [Hier.isAlive_eq, Hier.get_put hlt, if_pos rfl]; rfl

section remove
variable {T S : Type}

/-- Every completed `Close` removes its node. -/
def ClosesOne (close : Nat → M (Forest T × S) Unit) : Prop :=
  ∀ x p p', close x p = .ok () p' → p.1.hier.Loses x p'.1.hier

theorem callHook_hier {hook : Forest.Hook S T} {d : T} {p p' : Forest T × S} (h : Forest.callHook hook d p = .ok () p') :
    p'.1 = p.1 := by
  obtain ⟨f, σ⟩ := p
  unfold Forest.callHook at h
  simp only at h
  split at h <;> cases h; rfl

theorem onForest_ok_inv {α : Type} {m : M (Forest T) α} {p p' : Forest T × S} {a : α}
    (h : Forest.onForest m p = .ok a p') : m p.1 = .ok a p'.1 := by
  unfold Forest.onForest M.zoom at h
  split at h
  · next hm => cases h; exact hm
  · cases h

theorem bind_ok_inv {σ α β : Type} {m : M σ α} {k : α → M σ β} {s s' : σ} {b : β} (h : (m >>= k) s = .ok b s') :
    ∃ a s1, m s = .ok a s1 ∧ k a s1 = .ok b s' := by
  rw [M.run_bind] at h
  split at h
  · next hm => exact ⟨_, _, hm, h⟩
  · cases h

theorem onHier_ok_inv {α : Type} {m : M Hier α} {f f' : Forest T} {a : α} (h : Forest.onHier m f = .ok a f') :
    m f.hier = .ok a f'.hier := by
  unfold Forest.onHier M.zoom at h
  split at h
  · next hm => cases h; exact hm
  · cases h

theorem takeData_hier {x : Nat} {f f' : Forest T} {d : T} (h : Forest.takeData x f = .ok d f') : f'.hier = f.hier := by
  unfold Forest.takeData at h
  split at h <;> cases h; rfl

theorem read_ok_inv {σ α : Type} {g : σ → R α} {s s' : σ} {a : α} (h : M.read g s = .ok a s') : s' = s := by
  unfold M.read at h
  split at h <;> cases h; rfl

theorem closeForce_closes (hook : Forest.Hook S T) : ClosesOne (Forest.closeForce hook) := by
  intro x p p' h
  obtain ⟨d, p1, h1, h2⟩ := bind_ok_inv h
  obtain ⟨_, f1, h3, h4⟩ := bind_ok_inv (onForest_ok_inv h1)
  rw [callHook_hier h2, takeData_hier h4]
  have h5 := onHier_ok_inv h3
  rcases forceMakeRemoved_cases x "[consistency] the current node must be alive here" p.1.hier with ⟨h6, hl⟩ | ⟨e, h6⟩
  · rw [h6] at h5
    injection h5 with _ h5
    rw [← h5]
    exact loses_put (Hier.sameLive_ord.refl _) hl
  · rw [h6] at h5; cases h5

theorem closePanicSafe_closes (hook : Forest.Hook S T) : ClosesOne (Forest.closePanicSafe hook) := by
  intro x p p' h
  obtain ⟨d, p1, h1, h2⟩ := bind_ok_inv h
  obtain ⟨nb, f1, h3, h4⟩ := bind_ok_inv (onForest_ok_inv h1)
  have e1 : f1.hier = p.1.hier := read_ok_inv (onHier_ok_inv h3)
  obtain ⟨fc, f2, h5, h6⟩ := bind_ok_inv h4
  obtain rfl := read_ok_inv h5
  split at h6
  · cases h6
  obtain ⟨_, f3, h7, h8⟩ := bind_ok_inv h6
  have hdet := Hier.detach_sameLive x f2.hier
  rw [onHier_ok_inv h7, e1] at hdet
  obtain ⟨nb2, f4, h9, h10⟩ := bind_ok_inv h8
  have e2 : f4.hier = f3.hier := read_ok_inv (onHier_ok_inv h9)
  obtain ⟨al, f5, h11, h12⟩ := bind_ok_inv h10
  obtain rfl := read_ok_inv h11
  split at h12
  · cases h12
  obtain ⟨_, f6, h13, h14⟩ := bind_ok_inv h12
  rw [callHook_hier h2, takeData_hier h14]
  have h15 := onHier_ok_inv h13
  rcases makeRemoved_cases x "[consistency] the current node must be alive here" f5.hier with ⟨h16, hl⟩ | ⟨e, h16⟩
  · rw [h16] at h15
    injection h15 with _ h15
    rw [← h15]
    rw [e2] at hl ⊢
    exact loses_put hdet hl
  · rw [h16] at h15; cases h15

/-- The traverser emits an `Open` event. -/
def openStep (h : Hier) (tr : Safe.St) : Option Safe.St :=
  match Safe.next h tr with
  | .ok (some (.opn _), tr') => some tr'
  | _ => none

theorem openStep_eq {h : Hier} {tr tr' : Safe.St} (hs : openStep h tr = some tr') :
    ∃ x, Safe.next h tr = .ok (some (.opn x), tr') ∧ tr.next = some (.opn x) ∧ tr'.root = tr.root ∧ x < h.nbrs.length := by
  unfold openStep at hs
  split at hs
  · next x t hn =>
    cases hs
    refine ⟨x, hn, ?_⟩
    obtain ⟨nx, r⟩ := tr
    unfold Safe.next at hn
    cases nx with
    | none => simp at hn
    | some n =>
      simp only at hn
      cases hnn : Safe.nextOfNext h r n with
      | error e => rw [hnn] at hn; cases hn
      | ok nn =>
        rw [hnn] at hn
        cases hn
        refine ⟨rfl, rfl, ?_⟩
        simp only [Safe.nextOfNext, reduceCtorEq, if_false] at hnn
        cases hnb : h.neighbors x with
        | none => rw [hnb] at hnn; simp [expect] at hnn
        | some nb => exact nbr_lt hnb
  · cases hs

theorem openStep_forever {h : Hier} {tr : Safe.St} (hg : Goes (openStep h) (h.nbrs.length + 2) tr) (k : Nat) :
    Goes (openStep h) k tr := by
  refine goes_forever (fun s => s.root = tr.root) (fun s s' hi hs => ?_) (N := h.nbrs.length)
    (fun s => match s.next with | some e => e.node | none => 0) (fun s s' _ _ hs _ => ?_)
    (fun s s' _ t t' _ hi ht hs _ ht' _ e => ?_) rfl hg k
  · obtain ⟨_, _, _, h3, _⟩ := openStep_eq hs; rw [h3]; exact hi
  · obtain ⟨x, _, h2, _, h4⟩ := openStep_eq hs; rw [h2]; exact h4
  · obtain ⟨x, _, h2, _, h4⟩ := openStep_eq hs
    obtain ⟨y, _, h2', _, h4'⟩ := openStep_eq ht'
    rw [h2, h2'] at e
    simp only [Ev.node] at e
    subst e
    obtain ⟨sn, sr⟩ := s
    obtain ⟨tn, trr⟩ := t
    simp only at h2 h2' hi ht
    rw [h2, h2', hi, ht]

theorem removeLoop_open (close : Nat → M (Forest T × S) Unit) {p : Forest T × S} {tr tr' : Safe.St}
    (hs : openStep p.1.hier tr = some tr') (F : Nat) :
    Forest.removeLoop close (F + 1) tr p = Forest.removeLoop close F tr' p := by
  obtain ⟨x, hn, _⟩ := openStep_eq hs
  rw [Forest.removeLoop]
  simp only [M.run_bind, M.read, hn]

theorem removeLoop_opens (close : Nat → M (Forest T × S) Unit) {p : Forest T × S} : ∀ (k : Nat) (tr : Safe.St),
    Goes (openStep p.1.hier) k tr →
      (∃ tr', (∀ F, Forest.removeLoop close (F + k) tr p = Forest.removeLoop close F tr' p))
  | 0, tr, _ => ⟨tr, fun _ => rfl⟩
  | k + 1, tr, ⟨tr1, hs, hg⟩ => by
    obtain ⟨tr', h⟩ := removeLoop_opens close k tr1 hg
    exact ⟨tr', fun F => by rw [← Nat.add_assoc, removeLoop_open close hs, h]⟩

/-- Opens until the first round that does something else. -/
theorem removeLoop_first (close : Nat → M (Forest T × S) Unit) {p : Forest T × S} : ∀ (k : Nat) (tr : Safe.St),
    ¬ Goes (openStep p.1.hier) k tr → ∃ j tr', j < k ∧ openStep p.1.hier tr' = none ∧
      ∀ F, Forest.removeLoop close (F + j) tr p = Forest.removeLoop close F tr' p
  | 0, _, h => (h trivial).elim
  | k + 1, tr, h => by
    cases hs : openStep p.1.hier tr with
    | none => exact ⟨0, tr, by omega, hs, fun _ => rfl⟩
    | some tr1 =>
      have : ¬ Goes (openStep p.1.hier) k tr1 := fun hg => h ⟨tr1, hs, hg⟩
      obtain ⟨j, tr', hj, ht, hr⟩ := removeLoop_first close k tr1 this
      exact ⟨j + 1, tr', by omega, ht, fun F => by rw [← Nat.add_assoc, removeLoop_open close hs, hr]⟩

theorem removeLoop_rounds {close : Nat → M (Forest T × S) Unit} (hc : ClosesOne close) (n : Nat) : ∀ (L : Nat)
    (tr : Safe.St) (p : Forest T × S), p.1.hier.nbrs.length = n → p.1.hier.liveCount ≤ L → ∀ F, (L + 1) * (n + 2) ≤ F →
      ∀ k, (Forest.removeLoop close F tr p).Same (Forest.removeLoop close (F + k) tr p) := by
  intro L
  induction L using Nat.strong_induction_on with
  | _ L ih =>
    intro tr p hn hL F hF k
    have hmul : (L + 1) * (n + 2) = L * (n + 2) + (n + 2) := by rw [Nat.add_mul, Nat.one_mul]
    by_cases hg : Goes (openStep p.1.hier) (n + 2) tr
    · right
      rw [← hn] at hg
      have hall := openStep_forever hg
      have : ∀ F, ∃ s, Forest.removeLoop close F tr p = .fail .diverge s := by
        intro F
        obtain ⟨tr', h⟩ := removeLoop_opens close F tr (hall F)
        have := h 0
        rw [Nat.zero_add] at this
        exact ⟨p, by rw [this]; rfl⟩
      exact ⟨this F, this _⟩
    · obtain ⟨j, tr', hj, ht, hr⟩ := removeLoop_first close _ tr hg
      obtain ⟨G, rfl⟩ : ∃ G, F = (G + 1) + j := ⟨F - j - 1, by omega⟩
      rw [show G + 1 + j + k = (G + k + 1) + j by omega, hr, hr]
      simp only [Forest.removeLoop, M.run_bind, M.read]
      cases hnx : Safe.next p.1.hier tr' with
      | error e => exact .inl rfl
      | ok q =>
        obtain ⟨ev, tr2⟩ := q
        cases ev with
        | none => exact .inl rfl
        | some ev =>
          cases ev with
          | opn x => simp [openStep, hnx] at ht
          | cls x =>
            simp only [M.run_bind]
            cases hcl : close x p with
            | fail e s => exact .inl rfl
            | ok u p' =>
              have hlo := hc x p p' hcl
              have hcnt := hlo.count
              have h1 : p'.1.hier.liveCount < L := by omega
              refine ih (L - 1) (by omega) tr2 p' (by rw [hlo.len, hn]) (by omega) G ?_ k
              have : (L - 1 + 1) = L := by omega
              rw [this]
              omega

/-- The loops of the removal functions have enough fuel. -/
theorem removeLoop_fuel {close : Nat → M (Forest T × S) Unit} (hc : ClosesOne close) (tr : Safe.St) (p : Forest T × S)
    (k : Nat) : (Forest.removeLoop close (Forest.removeFuel p.1) tr p).Same
      (Forest.removeLoop close (Forest.removeFuel p.1 + k) tr p) :=
  removeLoop_rounds hc _ _ tr p rfl p.1.hier.liveCount_le _ (Nat.le_refl _) k

end remove

end Treena
