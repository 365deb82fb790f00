import Verif.Model.Release
import Verif.Proof.Remove
import Verif.Proof.CreateInsert
import Verif.Proof.Bfs
/-! The release build does what the debug build does. -/

set_option autoImplicit false

namespace Treena
namespace Release

/-- The panics raised by the debug assertions (including the `expect` evaluated inside one of them). -/
def Asserts (e : Fail) : Prop :=
  e = .panic "[consistency] the children have been transplanted" ∨
  e = .panic "[consistency] the node must be the leaf" ∨
  e = .panic "[consistency] the current node must be alive here" ∨
  e = .panic "[consistency] the detached leaf node must be alone"

/-- At `st`, `r` does what `m` does unless `m` runs into an assertion. -/
def RefAt {σ α : Type} (m r : M σ α) (st : σ) : Prop :=
  r st = m st ∨ ∃ e st', m st = .fail e st' ∧ Asserts e

/-- `r` does what `m` does unless `m` runs into an assertion. -/
def Ref {σ α : Type} (m r : M σ α) : Prop := ∀ st, RefAt m r st

namespace Ref
variable {σ τ α β : Type}

theorem refl (m : M σ α) : Ref m m := fun _ => .inl rfl

theorem bind {m r : M σ α} {k l : α → M σ β} (h : Ref m r) (hk : ∀ a, Ref (k a) (l a)) :
    Ref (m >>= k) (r >>= l) := by
  intro st
  rcases h st with h | ⟨e, st', h, ha⟩
  · simp only [RefAt, M.run_bind, h]
    cases m st with
    | fail e s' => exact .inl rfl
    | ok a s' => exact hk a s'
  · exact .inr ⟨e, st', by simp only [M.run_bind, h], ha⟩

theorem zoom {m r : M σ α} (g : τ → σ) (s : σ → τ → τ) (h : Ref m r) : Ref (M.zoom g s m) (M.zoom g s r) := by
  intro st
  rcases h (g st) with h | ⟨e, st', h, ha⟩
  · exact .inl (by simp only [M.zoom, h])
  · exact .inr ⟨e, s st' st, by simp only [M.zoom, h], ha⟩

/-- A read-only computation on one side only. -/
theorem read_left {g : σ → R α} {k : α → M σ β} {r : M σ β} {st : σ}
    (he : ∀ e, g st = .error e → Asserts e) (hk : ∀ a, g st = .ok a → RefAt (k a) r st) :
    RefAt (M.read g >>= k) r st := by
  cases hg : g st with
  | error e => exact .inr ⟨e, st, by simp only [M.run_bind, M.read, hg], he e hg⟩
  | ok a =>
    rcases hk a hg with h | ⟨e, st', h, ha⟩
    · exact .inl (by simp only [M.run_bind, M.read, hg, h])
    · exact .inr ⟨e, st', by simp only [M.run_bind, M.read, hg, h], ha⟩

/-- The same read-only computation on both sides. -/
theorem read_both {g : σ → R α} {k l : α → M σ β} {st : σ}
    (hk : ∀ a, g st = .ok a → RefAt (k a) (l a) st) : RefAt (M.read g >>= k) (M.read g >>= l) st := by
  cases hg : g st with
  | error e => exact .inl (by simp only [M.run_bind, M.read, hg])
  | ok a =>
    rcases hk a hg with h | ⟨e, st', h, ha⟩
    · exact .inl (by simp only [M.run_bind, M.read, hg, h])
    · exact .inr ⟨e, st', by simp only [M.run_bind, M.read, hg, h], ha⟩

end Ref

/-! ### The traverser of removal and local clone -/

theorem nextOfNext_eq (h : Hier) (root : Nat) (ev : Ev Nat) :
    Safe.nextOfNext h root ev = Treena.Safe.nextOfNext h root ev := by
  unfold Safe.nextOfNext Treena.Safe.nextOfNext
  by_cases hr : ev = .cls root
  · simp [hr]
  · cases ev with
    | opn id => rfl
    | cls id =>
      have : id ≠ root := fun e => hr (by rw [e])
      simp only [if_neg hr, if_neg this]
      cases h.neighbors id with
      | none => rfl
      | some nb =>
        simp only [expect_some]
        cases nb.nextSibling with
        | error e => rfl
        | ok o => cases o <;> rfl

theorem safe_next_eq (h : Hier) (st : Treena.Safe.St) : Safe.next h st = Treena.Safe.next h st := by
  unfold Safe.next Treena.Safe.next
  cases st.next with
  | none => rfl
  | some n => simp only [nextOfNext_eq]; cases Treena.Safe.nextOfNext h st.root n <;> rfl

section forest
variable {T S : Type}

theorem removeLoop_eq (close : Nat → M (Forest T × S) Unit) : ∀ (fuel : Nat) (tr : Treena.Safe.St),
    Forest.removeLoop close fuel tr = Treena.Forest.removeLoop close fuel tr
  | 0, _ => rfl
  | fuel + 1, tr => by
    unfold Forest.removeLoop Treena.Forest.removeLoop
    simp only [safe_next_eq]
    congr 1; funext p
    obtain ⟨ev, tr'⟩ := p
    cases ev with
    | none => rfl
    | some ev =>
      cases ev with
      | opn _ => exact removeLoop_eq close fuel tr'
      | cls id => simp only [removeLoop_eq close fuel tr']

theorem removeWith_eq (close : Nat → M (Forest T × S) Unit) (x : Nat) :
    Forest.removeWith close x = Treena.Forest.removeWith close x := by
  unfold Forest.removeWith Treena.Forest.removeWith
  simp only [removeLoop_eq]

theorem removeHooked_eq (hook : Treena.Forest.Hook S T) (x : Nat) :
    Forest.removeHooked hook x = Treena.Forest.removeHooked hook x := removeWith_eq _ x

theorem remove_eq (x : Nat) : (Forest.remove x : M (Treena.Forest T) Unit) = Treena.Forest.remove x := by
  funext f
  simp only [Forest.remove, Treena.Forest.remove, removeHooked_eq]
  cases Treena.Forest.removeHooked (S := Unit) (fun s _ => .ok s) x (f, ()) <;> rfl

theorem localSrc_eq : (Forest.localSrc : Treena.Forest.CloneSrc T Treena.Safe.St) = Treena.Forest.localSrc := by
  unfold Forest.localSrc Treena.Forest.localSrc
  simp only [safe_next_eq]

theorem cloneLocal_eq (cap : Nat) (cl : T → Option T) (hook : Treena.Forest.MapHook S) (x : Nat) :
    Forest.cloneLocalTreeWithIdMapping cap cl hook x = Treena.Forest.cloneLocalTreeWithIdMapping cap cl hook x := by
  unfold Forest.cloneLocalTreeWithIdMapping Treena.Forest.cloneLocalTreeWithIdMapping
  simp only [safe_next_eq, localSrc_eq]

/-! ### Removal with a careful hook -/

theorem nbrOf_read (id : Nat) (msg : String) :
    (Treena.Forest.onHier (Treena.Hier.nbrOf id msg) : M (Treena.Forest T) Neighbors) =
      M.read fun f => expect (f.hier.neighbors id) msg := by
  funext f
  simp only [Treena.Forest.onHier, M.zoom, Treena.Hier.nbrOf, M.read]
  cases f.hier.neighbors id <;> rfl

theorem neighbors_isAlive {h : Hier} {id : Nat} {nb : Neighbors} (hn : h.neighbors id = some nb) :
    nb.isAlive = true := by
  by_cases hl : h.live id
  · rw [Treena.Hier.neighbors_live hl] at hn
    cases hn
    exact hl
  · rw [Treena.Hier.neighbors_dead hl] at hn; cases hn

theorem expect_error {α : Type} {o : Option α} {msg : String} {e : Fail} (h : expect o msg = .error e) :
    e = .panic msg := by
  cases o with
  | none => simp at h; exact h.symm
  | some a => simp at h

theorem expect_ok {α : Type} {o : Option α} {msg : String} {a : α} (h : expect o msg = .ok a) : o = some a := by
  cases o with
  | none => simp at h
  | some b => simp at h; rw [h]

theorem closePanicSafe_ref (hook : Treena.Forest.Hook S T) (id : Nat) :
    Ref (Treena.Forest.closePanicSafe hook id) (Forest.closePanicSafe hook id) := by
  unfold Treena.Forest.closePanicSafe Forest.closePanicSafe
  refine Ref.bind (Ref.zoom _ _ ?_) fun _ => Ref.refl _
  intro f
  rw [nbrOf_read]
  refine Ref.read_left (fun e he => .inr (.inr (.inl (expect_error he)))) fun nb hnb => ?_
  have hal := neighbors_isAlive (expect_ok hnb)
  refine Ref.read_left (fun e he => by simp [Neighbors.firstChild, hal] at he) fun fc _ => ?_
  split
  · exact .inr ⟨_, f, rfl, .inr (.inl rfl)⟩
  refine Ref.bind (Ref.refl _) (fun _ => ?_) f
  intro f'
  refine Ref.read_both fun nb hnb => ?_
  have hal := neighbors_isAlive (expect_ok hnb)
  refine Ref.read_left (fun e he => by simp [Neighbors.isAlone, hal] at he) fun alone _ => ?_
  split
  · exact .inr ⟨_, f', rfl, .inr (.inr (.inr rfl))⟩
  · exact .inl rfl

theorem removeLoop_ref {close close' : Nat → M (Treena.Forest T × S) Unit} (h : ∀ id, Ref (close id) (close' id)) :
    ∀ (fuel : Nat) (tr : Treena.Safe.St),
      Ref (Treena.Forest.removeLoop close fuel tr) (Treena.Forest.removeLoop close' fuel tr)
  | 0, _ => Ref.refl _
  | fuel + 1, tr => by
    unfold Treena.Forest.removeLoop
    refine Ref.bind (Ref.refl _) fun p => ?_
    obtain ⟨ev, tr'⟩ := p
    cases ev with
    | none => exact Ref.refl _
    | some ev =>
      cases ev with
      | opn _ => exact removeLoop_ref h fuel tr'
      | cls id => exact Ref.bind (h id) fun _ => removeLoop_ref h fuel tr'

theorem removePanicSafe_ref (hook : Treena.Forest.Hook S T) (x : Nat) :
    Ref (Treena.Forest.removeHookedPanicSafe hook x) (Forest.removeHookedPanicSafe hook x) := by
  unfold Treena.Forest.removeHookedPanicSafe Forest.removeHookedPanicSafe
  rw [removeWith_eq]
  unfold Treena.Forest.removeWith
  refine Ref.bind (Ref.refl _) fun alive => ?_
  split
  · exact Ref.refl _
  refine Ref.bind (Ref.refl _) fun _ => Ref.bind (Ref.refl _) fun _ => Ref.bind (Ref.refl _) fun _ => ?_
  exact removeLoop_ref (closePanicSafe_ref hook) _ _

/-! ### `detach_single` -/

theorem updNbr_then {h h' : Hier} {id : Nat} {msg : String} {g : Neighbors → Neighbors} (hg : ∀ nb, (g nb).isAlive = true)
    (hu : Treena.Hier.updNbr id msg g h = .ok () h') : ∃ nb, h'.neighbors id = some nb ∧ nb.isAlive = true := by
  unfold Treena.Hier.updNbr at hu
  cases hn : h.neighbors id with
  | none => rw [hn] at hu; cases hu
  | some nb =>
    rw [hn] at hu
    injection hu with _ hu
    subst hu
    refine ⟨g nb, ?_, hg nb⟩
    have hl : h.live id := by
      apply Classical.byContradiction
      intro hl
      rw [Treena.Hier.neighbors_dead hl] at hn; cases hn
    have hgp : (h.put id (g nb)).get id = g nb := by rw [Treena.Hier.get_put (Treena.Hier.live_lt hl)]; simp
    have hl' : (h.put id (g nb)).live id := by unfold Treena.Hier.live; rw [hgp]; exact hg nb
    have := Treena.Hier.neighbors_live hl'
    rw [hgp] at this
    exact this

theorem hier_detachSingle_ref (x : Nat) : Ref (Treena.Hier.detachSingle x) (Hier.detachSingle x) := by
  unfold Treena.Hier.detachSingle Hier.detachSingle
  refine Ref.bind (Ref.refl _) fun nbs => Ref.bind (Ref.refl _) fun fl => ?_
  cases fl with
  | none => exact Ref.refl _
  | some p =>
    refine Ref.bind (Ref.refl _) fun parent => ?_
    cases parent with
    | none => exact Ref.refl _
    | some parent =>
      refine Ref.bind (Ref.refl _) fun prev => Ref.bind (Ref.refl _) fun next => Ref.bind (Ref.refl _) fun _ =>
        Ref.bind (Ref.refl _) fun range => Ref.bind (Ref.refl _) fun r => ?_
      cases r with
      | error e => exact Ref.refl _
      | ok u =>
        intro h
        cases hu : Treena.Hier.updNbr x "[precondition] the node must be alive"
            (fun nb => { nb with parent := none, next := none, prevCyc := some x }) h with
        | fail e h' => exact .inl (by simp only [M.run_bind, hu])
        | ok a h' =>
          obtain ⟨nb, hn, hal⟩ := updNbr_then (fun _ => rfl) hu
          simp only [RefAt, M.run_bind, hu, Treena.Hier.nbrOf, M.read, hn, expect_some, Neighbors.firstChild, hal]
          by_cases hf : nb.first = none
          · exact .inl (by simp [hf])
          · exact .inr ⟨_, h', by simp [hf], .inl rfl⟩

theorem detachSingle_ref (x : Nat) :
    Ref (Treena.Forest.detachSingle x : M (Treena.Forest T) _) (Forest.detachSingle x) :=
  Ref.zoom _ _ (hier_detachSingle_ref x)

/-! ### Consistent forests -/

theorem hook_not_assert : ¬ Asserts (.panic "hook panicked") := by
  intro h; rcases h with h | h | h | h <;> · injection h with h; revert h; decide

theorem Ref.of_ok {σ α : Type} {m r : M σ α} (h : Ref m r) {st st' : σ} {a : α} (hm : m st = .ok a st') : r st = m st := by
  rcases h st with h | ⟨e, s', h, _⟩
  · exact h
  · rw [hm] at h; cases h

variable {f : Treena.Forest T} {s : Shape}

theorem removePanicSafe_models (hook : Treena.Forest.Hook S T) (hm : Models f s) (x : Nat) (σ : S) :
    Forest.removeHookedPanicSafe hook x (f, σ) = Treena.Forest.removeHookedPanicSafe hook x (f, σ) := by
  cases hx : s.alive x with
  | false =>
    have : Treena.Forest.removeHookedPanicSafe hook x (f, σ) = .ok () (f, σ) := by
      unfold Treena.Forest.removeHookedPanicSafe Treena.Forest.removeWith
      simp [M.run_bind, M.read, hm.hierAlive, hx]
    exact (removePanicSafe_ref hook x).of_ok this
  | true =>
    obtain ⟨t, ht, hr⟩ := Tree.exists_tree hm.valid hx
    subst hr
    obtain ⟨f', h⟩ := removeHookedPanicSafe_spec hook hm ht hx σ
    rcases hfd : feed hook σ (t.postorder.filterMap f.getData) with ⟨σ', o⟩
    rw [hfd] at h
    cases o with
    | none => exact (removePanicSafe_ref hook _).of_ok h.1
    | some k =>
      rcases removePanicSafe_ref hook t.root (f, σ) with h' | ⟨e, s', h', ha⟩
      · exact h'
      · rw [h.1] at h'
        injection h' with h' _
        subst h'
        exact absurd ha hook_not_assert

theorem detachSingle_models (hm : Models f s) (x : Nat) : Forest.detachSingle x f = Treena.Forest.detachSingle x f := by
  cases hx : s.alive x with
  | false =>
    have hn : f.hier.neighbors x = none := Treena.Hier.neighbors_dead (not_live_of_dead hm hx)
    simp only [Forest.detachSingle, Treena.Forest.detachSingle, Treena.Forest.onHier, M.zoom]
    simp [Treena.Hier.detachSingle, Hier.detachSingle, M.run_bind, Treena.Hier.nbrOf, M.read, hn]
  | true =>
    cases hp : s.parent x with
    | some p => obtain ⟨f', h, _⟩ := forest_detachSingle_child hm hp; exact (detachSingle_ref x).of_ok h
    | none =>
      cases hk : s.kids x with
      | nil => exact (detachSingle_ref x).of_ok (forest_detachSingle_root_nil hm hx hp hk)
      | cons c cs =>
        cases cs with
        | nil => obtain ⟨f', h, _⟩ := forest_detachSingle_root_one hm hx hp hk; exact (detachSingle_ref x).of_ok h
        | cons c' cs =>
          exact (detachSingle_ref x).of_ok (forest_detachSingle_root_many hm hx hp (by rw [hk]; simp))

theorem step_models (cap : Nat) (hm : Models f s) (op : Op T) : step cap f op = Op.step cap f op := by
  cases op with
  | detachSingle x => simp only [step, Op.step, detachSingle_models hm]
  | remove x => simp only [step, Op.step, remove_eq]
  | removeHooked S hook c x => simp only [step, Op.step, removeHooked_eq]
  | removeHookedPanicSafe S hook c x => simp only [step, Op.step, removePanicSafe_models hook hm]
  | cloneLocal S cl hook c x => simp only [step, Op.step, cloneLocal_eq]
  | _ => rfl

end forest

/-! ### Printing -/

section print
open Treena.DebugPrint
variable {T S : Type}

theorem when_true (m : P S Unit) (w : Writer S) : P.when true m w = m w := rfl
theorem when_false (m : P S Unit) (w : Writer S) : P.when false m w = .ok () w := rfl

theorem startLine_line {put : S → Text → Except S S} {w w' : Writer S} (h : startLine put w = .ok () w') :
    w'.lineState ≠ .beforeIndent := by
  unfold startLine at h
  simp only [P.run_bind, P.run_line, P.when] at h
  by_cases hb : w.lineState = .beforeIndent
  · simp only [hb, beq_self_eq_true, if_true, P.run_bind] at h
    cases hw : writeIndentPartial put w with
    | ok a w1 =>
      rw [hw] at h
      simp only [setLine, P.run_modify] at h
      injection h with _ h
      subst h
      simp
    | err w1 => rw [hw] at h; cases h
    | fail e w1 => rw [hw] at h; cases h
  · have hb' : (w.lineState == LineState.beforeIndent) = false := by simpa using hb
    simp only [hb'] at h
    injection h with _ h
    subst h
    exact hb

theorem writeContent_eq (put : S → Text → Except S S) (c : Text) (b : Bool) (w : Writer S)
    (hw : w.lineState ≠ .beforeIndent) : DebugPrint.writeContent put c b w = Treena.DebugPrint.writeContent put c b w := by
  have hw' : (w.lineState == LineState.beforeIndent) = false := by simpa using hw
  unfold DebugPrint.writeContent Treena.DebugPrint.writeContent
  cases c with
  | nil => rfl
  | cons x xs =>
    simp only [List.isEmpty_cons, Bool.not_false, when_true, P.run_bind, P.run_line, hw', when_false]
    by_cases hp : w.lineState = .partialIndent
    · have : DebugPrint.completePartialIndent put w = Treena.DebugPrint.completePartialIndent put w := by
        unfold DebugPrint.completePartialIndent Treena.DebugPrint.completePartialIndent
        simp only [P.run_bind, P.run_line, P.run_indents, hp, bne_self_eq_false, when_false]
        rfl
      simp only [hp, beq_self_eq_true, when_true, this]
    · have hp' : (w.lineState == LineState.partialIndent) = false := by simpa using hp
      simp only [hp', when_false]

theorem writeStrLoop_eq (put : S → Text → Except S S) : ∀ (n : Nat) (t : Text) (w : Writer S),
    DebugPrint.writeStrLoop put n t w = Treena.DebugPrint.writeStrLoop put n t w
  | n, [], w => by cases n <;> rfl
  | 0, _ :: _, w => rfl
  | n + 1, c :: cs, w => by
    unfold DebugPrint.writeStrLoop Treena.DebugPrint.writeStrLoop
    simp only [P.run_bind]
    cases hs : startLine put w with
    | err _ => rfl
    | fail _ _ => rfl
    | ok a w1 =>
      have hl := startLine_line hs
      have hwn : ∃ w2 : Writer S, P.when (lineEnd (c :: cs)).2
          (P.modify fun w => { w with indents := clearLast w.indents }) w1 = .ok () w2 ∧ w2.lineState = w1.lineState := by
        cases (lineEnd (c :: cs)).2 with
        | true => exact ⟨_, rfl, rfl⟩
        | false => exact ⟨_, rfl, rfl⟩
      obtain ⟨w2, h2, h3⟩ := hwn
      simp only [h2]
      rw [writeContent_eq put _ _ w2 (by rw [h3]; exact hl)]
      cases Treena.DebugPrint.writeContent put ((c :: cs).take (lineEnd (c :: cs)).1) (lineEnd (c :: cs)).2 w2 with
      | ok _ w' => exact writeStrLoop_eq put n _ w'
      | err _ => rfl
      | fail _ _ => rfl

theorem writeStr_eq (put : S → Text → Except S S) (t : Text) : DebugPrint.writeStr put t = Treena.DebugPrint.writeStr put t := by
  funext w; exact writeStrLoop_eq put _ t w

theorem runFmt_eq (put : S → Text → Except S S) : ∀ φ : Fmt, DebugPrint.runFmt put φ = Treena.DebugPrint.runFmt put φ
  | .ret _ => rfl
  | .panic => rfl
  | .write t k => by
    funext w
    simp only [DebugPrint.runFmt, Treena.DebugPrint.runFmt, writeStr_eq]
    cases Treena.DebugPrint.writeStr put t w with
    | ok _ w' => exact congrFun (runFmt_eq put (k true)) w'
    | err w' => exact congrFun (runFmt_eq put (k false)) w'
    | fail _ _ => rfl

theorem writeData_eq (put : S → Text → Except S S) (disp : T → Fmt) (f : Treena.Forest T) (id : Nat) :
    DebugPrint.writeData put disp f id = Treena.DebugPrint.writeData put disp f id := by
  unfold DebugPrint.writeData Treena.DebugPrint.writeData
  simp only [runFmt_eq]

theorem printLoop_eq (put : S → Text → Except S S) (disp : T → Fmt) (f : Treena.Forest T) (fuel : Nat) :
    ∀ (n : Nat) (st : Dft.St), DebugPrint.printLoop put disp f fuel n st = Treena.DebugPrint.printLoop put disp f fuel n st
  | 0, _ => rfl
  | n + 1, st => by
    unfold DebugPrint.printLoop Treena.DebugPrint.printLoop
    congr 1; funext p
    obtain ⟨o, st'⟩ := p
    cases o with
    | none => rfl
    | some id => simp only [writeData_eq, printLoop_eq put disp f fuel n st']

theorem debugPrint_eq (put : S → Text → Except S S) (disp : T → Fmt) (f : Treena.Forest T) (id : Nat) :
    Forest.debugPrint put disp f id = Treena.Forest.debugPrint put disp f id := by
  have hi : ∀ n, DebugPrint.inner put disp f n = Treena.DebugPrint.inner put disp f n := by
    intro n
    unfold DebugPrint.inner Treena.DebugPrint.inner
    simp only [writeData_eq, printLoop_eq]
  funext σ
  simp only [Forest.debugPrint, Treena.Forest.debugPrint, hi]
  cases expect (f.node id) "[precondition] the node must be alive" with
  | error e => rfl
  | ok n => simp only []; cases Treena.DebugPrint.inner put disp f n (Writer.new σ) <;> rfl

end print
end Release
end Treena
