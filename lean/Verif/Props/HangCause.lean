import Verif.Proof.HangCause
import Verif.Props.Hang
/-!
# C89: why a traversal, a removal or printing hangs

Each call that hangs does so because some chain of links, seen through the accessors and traversals, has no end.
-/
set_option autoImplicit false

namespace Treena
open Fuel DebugPrint
variable {T S : Type} {f : Forest T} {cap um : Nat}

/-- **C89**: whatever happened before, calling `next` of an `AllocatingBreadthFirstTraverse` any number of times hangs only
if the children of some node go on for ever. -/
theorem C89_abft_cause (f : Forest T) (x n : Nat) (h : (Req.exec cap um f (.abft x n)).2 = .hung) :
    ∃ y c, f.firstChildId y = .ok (some c) ∧ Endless f.nextSiblingId c := by
  have key : Req.iterate1 f.abftNext (f.allocatingBreadthFirstTraverse x) n = .error .diverge := by
    simp only [Req.exec] at h
    cases e : Req.iterate1 f.abftNext (f.allocatingBreadthFirstTraverse x) n with
    | ok a => rw [e] at h; cases h
    | error e' =>
      rw [e] at h
      cases e' with
      | panic m => cases h
      | diverge => rfl
  unfold Req.iterate1 at key
  split at key
  · rename_i st hst
    refine abft_pull n st ?_ key
    unfold Forest.allocatingBreadthFirstTraverse Forest.iterNew ABft.withToplevel at hst
    split at hst
    · cases hst
    · split at hst <;> cases hst
      simp [OneMark]
  · rename_i e he
    cases key
    exact absurd he (Halts.allocatingBreadthFirstTraverse x)

/-- **C89**: whatever happened before, the first `next` of an `AllocatingBreadthFirstTraverse` at a live node hangs exactly
if the children of this node go on for ever. -/
theorem C89_abft_first (f : Forest T) {x : Nat} (hx : f.isAlive x = true) :
    (Req.exec cap um f (.abft x 1)).2 = .hung ↔ ∃ c, f.firstChildId x = .ok (some c) ∧ Endless f.nextSiblingId c := by
  by_cases hh : f.hier.isAlive x = true
  · have hst : f.allocatingBreadthFirstTraverse x = .ok { events := [.node x, .incrementDepth], depth := 0 } := by
      unfold Forest.allocatingBreadthFirstTraverse Forest.iterNew ABft.withToplevel Forest.nodeOrPanic Forest.node
      simp [hx, expect, hh]
    have key := (abft_node (f := f) (st := { events := [.node x, .incrementDepth], depth := 0 }) (id := x) (rest := [.incrementDepth]) rfl (F := 3)).1
    simp only [Req.exec, Req.iterate1, hst, pull, Forest.abftNext, Forest.emit, ABft.next]
    refine Iff.trans ?_ key
    constructor
    · intro h
      cases hn : ABft.nextLoop f.hier (3 + 1) { events := [.node x, .incrementDepth], depth := 0 } with
      | error e =>
        simp only [List.length_cons, List.length_nil] at h
        rw [hn] at h
        cases e with
        | panic m => cases h
        | diverge => rfl
      | ok p =>
        simp only [List.length_cons, List.length_nil] at h
        rw [hn] at h
        obtain ⟨o, st⟩ := p
        cases o with
        | none => cases h
        | some i =>
          dsimp only at h
          cases ha : f.nodeAt i.1 with
          | ok z => rw [ha] at h; cases h
          | error e =>
            rw [ha] at h
            cases e with
            | panic m => cases h
            | diverge => exact absurd ha (Halts.nodeAt _)
    · intro h
      simp only [List.length_cons, List.length_nil]
      rw [h]
      rfl
  · have hst : ∃ m, f.allocatingBreadthFirstTraverse x = .error (.panic m) := by
      unfold Forest.allocatingBreadthFirstTraverse Forest.iterNew ABft.withToplevel Forest.nodeOrPanic Forest.node
      simp [hx, expect, hh]
    obtain ⟨m, hst⟩ := hst
    refine ⟨fun h => ?_, ?_⟩
    · simp only [Req.exec, Req.iterate1, hst] at h
      cases h
    · rintro ⟨c, h, -⟩
      unfold Forest.firstChildId Forest.nbr at h
      have hn : f.hier.neighbors x = none := by
        unfold Hier.isAlive at hh
        unfold Hier.neighbors
        cases e : f.hier.nbrs[x]? with
        | none => rfl
        | some nb =>
          rw [e] at hh
          simp only [Bool.not_eq_true] at hh
          simp [hh]
      rw [hn] at h
      cases h

/-- **C89**: whatever happened before, `remove_hooked(x, hook)` hangs only if, after `detach(x)`, descending from some node
from first child to first child never ends. -/
theorem C89_remove_cause (hook : Forest.Hook S T) {x : Nat} {s : S} {q : Forest T × S} (h : Forest.removeHooked hook x (f, s) = .fail .diverge q) :
    ∃ g c, Forest.detach x f = .ok () g ∧ Endless g.firstChildId c := by
  revert h
  unfold Forest.removeHooked Forest.removeWith
  rw [M.run_bind]
  simp only [M.read]
  split
  · nofun
  · rw [M.run_bind]
    cases hd : Forest.onForest (Forest.detach x) (f, s) with
    | fail e q' =>
      intro h
      cases h
      unfold Forest.onForest M.zoom at hd
      split at hd
      · cases hd
      · rename_i e'
        cases hd
        exact absurd e' (HaltsM.onHier (HaltsM.detach _ _) _)
    | ok u p =>
      have hd' : Forest.detach x f = .ok () p.1 := onForest_ok_inv hd
      dsimp only
      rw [M.run_bind]
      cases hs : Safe.new x p.1.hier with
      | error e =>
        intro h
        simp only [M.read, hs] at h
        cases h
        unfold Safe.new at hs
        split at hs <;> cases hs
      | ok tr =>
        simp only [M.read, hs]
        rw [M.run_bind]
        intro h
        obtain ⟨h', tr', h1, h2⟩ := removeLoop_hangs hook _ _ tr p rfl p.1.hier.liveCount_le _ (Nat.le_refl _) q h
        obtain ⟨c, hc⟩ := opens_endless h1 h2
        exact ⟨p.1, c, hd', hc⟩

/-- **C89**: so does `remove(x)`. -/
theorem C89_drop_cause {x : Nat} {q : Forest T} (h : Forest.remove x f = .fail .diverge q) :
    ∃ g c, Forest.detach x f = .ok () g ∧ Endless g.firstChildId c := by
  unfold Forest.remove at h
  split at h
  · cases h
  · rename_i e
    cases h
    exact C89_remove_cause _ e

/-- **C89**: whatever happened before, printing a tree to a sink that does not fail hangs only if the depth-first traversal
of the tree never ends. -/
theorem C89_print_cause (hc : Coherent f) {put : S → Text → Except S S} (hp : ∀ σ t, ∃ σ', put σ t = .ok σ') {disp : T → Fmt} {x : Nat} {σ σ' : S}
    (h : f.debugPrint put disp x σ = .fail .diverge σ') : EndlessWalk f x := by
  unfold Forest.debugPrint at h
  cases hx : f.isAlive x with
  | false => simp [Forest.node, hx, expect] at h
  | true =>
    have hh : f.hier.isAlive x = true := by rw [← hc.live]; exact hx
    have hst : f.depthFirstTraverse x = .ok (some (.opn x, .cls x)) := by
      unfold Forest.depthFirstTraverse Forest.iterNew Dft.withToplevel Forest.nodeOrPanic Forest.node
      simp [hx, expect, hh]
    refine ⟨_, hst, ?_⟩
    have hnode : f.node x = some x := by simp [Forest.node, hx]
    rw [hnode] at h
    simp only [expect] at h
    have hin : ∃ w', DebugPrint.inner put disp f x (Writer.new σ) = .fail .diverge w' := by
      revert h
      cases DebugPrint.inner put disp f x (Writer.new σ) with
      | ok a w => nofun
      | err w => nofun
      | fail e w => intro h; cases h; exact ⟨w, rfl⟩
    obtain ⟨w', hin⟩ := hin
    unfold DebugPrint.inner at hin
    have hw : Dft.withToplevel x f.hier = .ok (some (.opn x, .cls x)) := by simp [Dft.withToplevel, hh]
    rw [hw] at hin
    simp only [P.run_bind, P.run_ofR_ok] at hin
    have noDiv : ∀ st, Dft.next f.hier st ≠ .error .diverge := fun st => Halts.deNext (fun e => Halts.dftFwd e) st
    cases hn : Dft.next f.hier (some (.opn x, .cls x)) with
    | error e =>
      rw [hn] at hin
      simp only [P.run_ofR_error] at hin
      cases hin
      exact absurd hn (noDiv _)
    | ok pr =>
      obtain ⟨o, st⟩ := pr
      have ho : ∃ e, o = some e := by
        unfold Dft.next deNext at hn
        dsimp only at hn
        split at hn
        · cases hn; exact ⟨_, rfl⟩
        · split at hn <;> cases hn <;> exact ⟨_, rfl⟩
      obtain ⟨e, rfl⟩ := ho
      rw [hn] at hin
      simp only [P.run_ofR_ok] at hin
      cases hf : fineAt disp f x with
      | false =>
        rcases writeData_stops hp hf (Writer.new σ) with ⟨w2, h3⟩ | ⟨m, w2, h3⟩
        · rw [h3] at hin; cases hin
        · rw [h3] at hin; cases hin
      | true =>
        obtain ⟨w2, h3, h4⟩ := writeData_fine hp hf (Writer.new σ)
        rw [h3] at hin
        dsimp only at hin
        have hw2 : w2.indents = [] := List.length_eq_zero_iff.1 h4
        rcases printLoop_fuel (disp := disp) (f := f) hp st w2 hw2 0 0 with ⟨hon, -, -⟩ | ⟨hno, -⟩
        · -- the first event has been read, the rest goes on for ever
          obtain ⟨b, hb, hcase⟩ := dft_event hn
          cases hb
          rcases hcase with ⟨h0, -⟩ | ⟨-, ⟨nb, hnb⟩, -⟩
          · cases h0
          · intro n
            cases n with
            | zero => exact ⟨[], rfl, rfl, nofun⟩
            | succ n =>
              obtain ⟨l, h5, h6, h7⟩ := walk_endless hc n st 0 hon
              have : f.dftNext (some (.opn x, .cls x)) = .ok (some (.opn x), st) := by
                unfold Forest.dftNext Forest.emit
                rw [hn]
                simp [Forest.nodeAt, Forest.node, hx, expect, Ev.node]
              refine ⟨some (.opn x) :: l, by simp [pull, this, h5], by simp [h6], fun i hi => ?_⟩
              rcases List.mem_cons.1 hi with rfl | hi
              · exact ⟨_, rfl⟩
              · exact h7 i hi
        · exfalso
          cases hl : printLoop put disp f (fuel f.hier) (fuel f.hier) st w2 with
          | fail e w3 =>
            rw [hl] at hin
            cases hin
            exact hno _ hl
          | err w3 => rw [hl] at hin; cases hin
          | ok st' w3 =>
            rw [hl] at hin
            simp only at hin
            cases hn2 : Dft.next f.hier st' with
            | error e =>
              rw [hn2] at hin
              simp only [P.run_ofR_error] at hin
              cases hin
              exact absurd hn2 (noDiv _)
            | ok pr =>
              rw [hn2] at hin
              simp only [P.run_ofR_ok, P.when] at hin
              split at hin <;> cases hin

/-! ### The hypotheses are met

The histories of C89 after which these calls hang. -/

example : ∃ y c, (Op.run 100 Forest.new carousel).firstChildId y = .ok (some c) ∧ Endless (Op.run 100 Forest.new carousel).nextSiblingId c :=
  C89_abft_cause (cap := 100) (um := 255) _ 1 1 (by decide +kernel)

example : EndlessWalk (Op.run 100 Forest.new ring) 1 := by
  have hr : ∃ t, (Op.run 100 Forest.new ring).debugPrint (fun out piece => .ok (out ++ piece)) (fun _ => Fmt.ofPieces true [['x']]) 1 [] = .fail .diverge t := by
    have : (Req.exec 100 255 (Op.run 100 Forest.new ring) (.print 1 fun _ => [['x']])).2 = .hung := by decide +kernel
    simp only [Req.exec] at this
    cases e : (Op.run 100 Forest.new ring).debugPrint (fun out piece => .ok (out ++ piece)) (fun _ => Fmt.ofPieces true [['x']]) 1 [] with
    | ok a t => rw [e] at this; cases this
    | fail e' t =>
      rw [e] at this
      cases e' with
      | panic m => cases this
      | diverge => exact ⟨t, rfl⟩
  obtain ⟨t, ht⟩ := hr
  exact C89_print_cause (Reachable.coherent ⟨ring, rfl⟩) (fun σ t => ⟨_, rfl⟩) ht

example : ∃ g c, Forest.detach 2 (Op.run 100 Forest.new ring) = .ok () g ∧ Endless g.firstChildId c := by
  have : (Req.exec 100 255 (Op.run 100 Forest.new ring) (.drop 2)).2 = .hung := by decide +kernel
  simp only [Req.exec] at this
  cases e : Forest.remove 2 (Op.run 100 Forest.new ring) with
  | ok a t => rw [e] at this; cases this
  | fail e' t =>
    rw [e] at this
    cases e' with
    | panic m => cases this
    | diverge => exact C89_drop_cause e

end Treena
