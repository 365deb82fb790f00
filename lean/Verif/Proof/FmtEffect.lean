import Verif.Spec.FmtEffect
import Verif.Proof.Printed
import Verif.Proof.Dft
/-! `debug_print` with effectful formatters. -/

set_option autoImplicit false

namespace Treena
namespace DebugPrint
open Render

variable {S T C α β : Type} {put : S → Text → Except S S}

/-- A writer with another piece of state beside the sink. -/
def Writer.up (c : C) (w : Writer S) : Writer (S × C) := ⟨(w.sink, c), w.lineState, w.indents⟩

/-- An outcome with another piece of state beside the sink. -/
def Out.up (c : C) : Out (Writer S) α → Out (Writer (S × C)) α
  | .ok a w => .ok a (w.up c)
  | .err w => .err (w.up c)
  | .fail e w => .fail e (w.up c)

/-- `m` does what `m0` does and does not touch the other piece of state. -/
def Sim (C : Type) (m : P (S × C) α) (m0 : P S α) : Prop := ∀ (c : C) w, m (w.up c) = (m0 w).up c

namespace Sim

theorem pure (a : α) : Sim C (Pure.pure a : P (S × C) α) (Pure.pure a) := fun _ _ => rfl

theorem throw (e : Fail) : Sim C (P.throw e : P (S × C) α) (P.throw e) := fun _ _ => rfl

theorem ofR (r : R α) : Sim C (P.ofR r : P (S × C) α) (P.ofR r) := fun _ _ => by cases r <;> rfl

theorem line : Sim C (P.line : P (S × C) LineState) P.line := fun _ _ => rfl

theorem indents : Sim C (P.indents : P (S × C) (List IndentLevel)) P.indents := fun _ _ => rfl

theorem bind {m : P (S × C) α} {m0 : P S α} {k : α → P (S × C) β} {k0 : α → P S β} (h : Sim C m m0)
    (hk : ∀ a, Sim C (k a) (k0 a)) : Sim C (m >>= k) (m0 >>= k0) := by
  intro c w
  simp only [P.run_bind, h c w]
  cases m0 w with
  | ok a w' => exact hk a c w'
  | err w' => rfl
  | fail e w' => rfl

theorem when {b : Bool} {m : P (S × C) Unit} {m0 : P S Unit} (h : Sim C m m0) : Sim C (P.when b m) (P.when b m0) := by
  intro c w
  unfold P.when
  cases b
  · rfl
  · exact h c w

theorem emit (t : Text) : Sim C (emit (beside put) t) (emit put t) := by
  intro c w
  unfold DebugPrint.emit beside
  simp only [Writer.up]
  cases put w.sink t <;> rfl

theorem setLine (l : LineState) : Sim C (setLine l : P (S × C) Unit) (setLine l) := fun _ _ => rfl

theorem openItem (last : Bool) : Sim C (openItem (beside put) last) (openItem put last) := by
  unfold DebugPrint.openItem
  refine bind line fun l => bind (when (bind (emit _) fun _ => setLine _)) fun _ => ?_
  exact bind (fun _ _ => rfl) fun _ => fun _ _ => rfl

theorem closeItem : Sim C (closeItem : P (S × C) Bool) closeItem := by
  unfold DebugPrint.closeItem
  refine bind indents fun is => ?_
  cases is.getLast? with
  | none => exact pure _
  | some j => exact bind (fun _ _ => rfl) fun _ => pure _

theorem emitAll : ∀ is : List IndentLevel, Sim C (emitAll (beside put) is) (emitAll put is)
  | [] => pure _
  | i :: is => by unfold DebugPrint.emitAll; exact bind (emit _) fun _ => emitAll is

theorem partialIndent : Sim C (writeIndentPartial (beside put)) (writeIndentPartial put) := by
  unfold writeIndentPartial
  refine bind indents fun is => ?_
  cases (stripRev is.reverse).reverse.getLast? with
  | none => exact pure _
  | some j => exact bind (emitAll _) fun _ => emit _

theorem complete : Sim C (completePartialIndent (beside put)) (completePartialIndent put) := by
  unfold completePartialIndent
  refine bind line fun l => bind (when (throw _)) fun _ => bind indents fun is => ?_
  cases is.getLast? with
  | none => exact pure _
  | some j => exact emit _

theorem startLine : Sim C (startLine (beside put)) (startLine put) := by
  unfold DebugPrint.startLine
  exact bind line fun l => when (bind partialIndent fun _ => setLine _)

theorem writeContent (t : Text) (nl : Bool) : Sim C (writeContent (beside put) t nl) (writeContent put t nl) := by
  unfold DebugPrint.writeContent
  refine when (bind line fun l => bind (when (throw _)) fun _ => bind (when complete) fun _ => ?_)
  exact bind (emit _) fun _ => setLine _

theorem writeStrLoop : ∀ (n : Nat) (t : Text), Sim C (writeStrLoop (beside put) n t) (writeStrLoop put n t)
  | 0, [] => pure _
  | 0, _ :: _ => throw _
  | n + 1, [] => pure _
  | n + 1, c :: cs => by
    unfold DebugPrint.writeStrLoop
    refine bind startLine fun _ => bind (when fun _ _ => rfl) fun _ => bind (writeContent _ _) fun _ => ?_
    exact writeStrLoop n _

theorem writeStr (t : Text) : Sim C (writeStr (beside put) t) (writeStr put t) := writeStrLoop _ _

theorem runFmt : ∀ F : Fmt, Sim C (runFmtE (beside put) (.ofFmt F)) (runFmt put F)
  | .ret ok => by intro c w; cases ok <;> rfl
  | .panic => throw _
  | .write t k => by
    intro c w
    simp only [EFmt.ofFmt, runFmtE, DebugPrint.runFmt, writeStr t c w]
    cases DebugPrint.writeStr put t w with
    | ok a w' => exact runFmt (k true) c w'
    | err w' => exact runFmt (k false) c w'
    | fail e w' => rfl

end Sim

/-- From the other state `c`, `m` does what `m0` does and leaves another state with `Q` (with `Qb` if it does not return
normally). -/
def SimAt (c : C) (m : P (S × C) α) (m0 : P S α) (Q : α → C → Prop) (Qb : C → Prop) : Prop :=
  ∀ w, ∃ c', m (w.up c) = (m0 w).up c' ∧
    match m0 w with
    | .ok a _ => Q a c'
    | .err _ => Qb c'
    | .fail _ _ => Qb c'

namespace SimAt

theorem of_sim {m : P (S × C) α} {m0 : P S α} (h : Sim C m m0) (c : C) :
    SimAt c m m0 (fun _ c' => c' = c) (fun c' => c' = c) := by
  intro w
  refine ⟨c, h c w, ?_⟩
  cases m0 w <;> rfl

theorem bind {c : C} {m : P (S × C) α} {m0 : P S α} {k : α → P (S × C) β} {k0 : α → P S β} {Q : α → C → Prop}
    {Q' : β → C → Prop} {Qb : C → Prop} (h : SimAt c m m0 Q Qb) (hk : ∀ a c', Q a c' → SimAt c' (k a) (k0 a) Q' Qb) :
    SimAt c (m >>= k) (m0 >>= k0) Q' Qb := by
  intro w
  obtain ⟨c', h1, h2⟩ := h w
  simp only [P.run_bind, h1]
  cases hm : m0 w with
  | ok a w' =>
    rw [hm] at h2
    exact hk a c' h2 w'
  | err w' => rw [hm] at h2; exact ⟨c', rfl, h2⟩
  | fail e w' => rw [hm] at h2; exact ⟨c', rfl, h2⟩

theorem mono {c : C} {m : P (S × C) α} {m0 : P S α} {Q Q' : α → C → Prop} {Qb Qb' : C → Prop} (h : SimAt c m m0 Q Qb)
    (h1 : ∀ a c', Q a c' → Q' a c') (h2 : ∀ c', Qb c' → Qb' c') : SimAt c m m0 Q' Qb' := by
  intro w
  obtain ⟨c', h3, h4⟩ := h w
  refine ⟨c', h3, ?_⟩
  cases hm : m0 w with
  | ok a w' => rw [hm] at h4; exact h1 _ _ h4
  | err w' => rw [hm] at h4; exact h2 _ h4
  | fail e w' => rw [hm] at h4; exact h2 _ h4

end SimAt

/-- The printing of the descendants, driven by the list of events; `wd` writes the datum of a node. -/
def flatW (put : S → Text → Except S S) (wd : Nat → P S Unit) (lastOf : Nat → Bool) :
    List (Ev Nat) → P S (List (Ev Nat))
  | [] => pure []
  | .cls _ :: L => do
    let ok ← closeItem
    if ok then flatW put wd lastOf L else pure L
  | .opn y :: L => do
    openItem put (lastOf y)
    wd y
    flatW put wd lastOf L

theorem flatW_flat (disp : T → Fmt) (f : Forest T) (lastOf : Nat → Bool) : ∀ L : List (Ev Nat),
    flatW put (writeData put disp f) lastOf L = flat put disp f lastOf L
  | [] => rfl
  | .cls y :: L => by simp only [flatW, flat, flatW_flat disp f lastOf L]
  | .opn y :: L => by simp only [flatW, flat, flatW_flat disp f lastOf L]

theorem flatW_prep (wd : Nat → P S Unit) (lastOf : Nat → Bool) : ∀ L : List (Ev Nat),
    flatW put wd lastOf L = (prep put lastOf L >>= fun r => match r.1 with
      | none => pure r.2
      | some y => wd y >>= fun _ => flatW put wd lastOf r.2)
  | [] => rfl
  | .cls y :: L => by
    rw [flatW, prep, bind_assoc]
    refine bind_congr rfl fun ok => ?_
    cases ok with
    | false => rfl
    | true => exact flatW_prep wd lastOf L
  | .opn y :: L => by
    rw [flatW, prep, bind_assoc]
    rfl

variable {f : Forest T} {s : Shape} {disp : T → EFmt S}

theorem printLoopE_flat (hm : Models f s) (fl : Nat) : ∀ (n : Nat) (L : List (Ev Nat)),
    Walk f Ev.node (Dft.stepFwd f.hier) (Dft.stepBack f.hier) L → L.length < n → L.length < fl →
    printLoopE put disp f fl n (ends L) =
      (flatW put (writeDataE put disp f) (lastFlag s) L >>= fun L' => pure (ends L'))
  | 0, L, _, h, _ => by omega
  | n + 1, L, w, hn, hfl => by
    rw [printLoopE, prepareNext_prep hm L fl w hfl, flatW_prep, bind_assoc, bind_assoc]
    funext wr
    simp only [P.run_bind]
    cases hp : prep put (lastFlag s) L wr with
    | err _ => rfl
    | fail _ _ => rfl
    | ok r w1 =>
      obtain ⟨o, L'⟩ := r
      obtain ⟨hs, hl⟩ := prep_suffix (lastFlag s) L wr o L' w1 hp
      cases o with
      | none => rfl
      | some y =>
        have hl := hl rfl
        simp only [P.run_pure, P.run_bind]
        cases writeDataE put disp f y w1 with
        | err _ => rfl
        | fail _ _ => rfl
        | ok _ w2 =>
          simp only
          rw [printLoopE_flat hm fl n L' (Walk.suffix w hs) (by omega) (by omega)]
          simp only [P.run_bind]
          cases flatW put (writeDataE put disp f) (lastFlag s) L' w2 <;> rfl

/-- The whole printing; `wd` writes the datum of a node. -/
def wholeW (put : S → Text → Except S S) (wd : Nat → P S Unit) (lastOf : Nat → Bool) (h : Hier) (root : Nat)
    (L : List (Ev Nat)) : P S Unit :=
  wd root >>= fun _ => flatW put wd lastOf L >>= fun L => P.ofR (Dft.next h (ends L)) >>= fun r =>
    P.when r.1.isSome (P.throw (.panic "assertion failed: traverser.next(hierarchy).is_none()"))

theorem innerE_eq (hm : Models f s) {t : Tree Nat} (ht : Tree.IsTree s.kids t) (hx : s.alive t.root = true) :
    innerE put disp f t.root = wholeW put (writeDataE put disp f) (lastFlag s) f.hier t.root t.events.tail := by
  have w := dft_walk hm ht hx
  have hst : Dft.withToplevel t.root f.hier = .ok (ends t.events) := by
    rw [ends_events]; simp [Dft.withToplevel, hm.hierAlive, hx]
  have hnx : Dft.next f.hier (ends t.events) = .ok (t.events.head?, ends t.events.tail) := w.deNext
  have hfu := count_fuel hm ht hx
  have htl : t.events.tail.length < fuel f.hier := by simp; omega
  unfold innerE wholeW
  rw [hst, ofR_bind, hnx, ofR_bind]
  refine bind_congr rfl fun _ => ?_
  simp only [printLoopE_flat hm (fuel f.hier) (fuel f.hier) t.events.tail w.tail htl htl, bind_assoc, pure_bind]

theorem inner_whole {disp : T → Fmt} (hm : Models f s) {t : Tree Nat} (ht : Tree.IsTree s.kids t) (hx : s.alive t.root = true) :
    inner put disp f t.root = wholeW put (writeData put disp f) (lastFlag s) f.hier t.root t.events.tail := by
  rw [inner_eq hm ht hx, wholeW]
  refine bind_congr rfl fun _ => ?_
  rw [flatW_flat]

/-! ### Without effects -/

theorem runFmtE_ofFmt : ∀ F : Fmt, runFmtE put (.ofFmt F) = runFmt put F
  | .ret ok => rfl
  | .panic => rfl
  | .write t k => by
    funext w
    simp only [EFmt.ofFmt, runFmtE, runFmt]
    cases writeStr put t w with
    | ok a w' => exact congrFun (runFmtE_ofFmt (k true)) w'
    | err w' => exact congrFun (runFmtE_ofFmt (k false)) w'
    | fail e w' => rfl

theorem writeDataE_ofFmt (disp : T → Fmt) (f : Forest T) (id : Nat) :
    writeDataE put (fun d => .ofFmt (disp d)) f id = writeData put disp f id := by
  unfold writeDataE writeData
  exact bind_congr rfl fun d => runFmtE_ofFmt _

theorem printLoopE_ofFmt (disp : T → Fmt) (f : Forest T) (fl : Nat) : ∀ (n : Nat) (st : Dft.St),
    printLoopE put (fun d => .ofFmt (disp d)) f fl n st = printLoop put disp f fl n st
  | 0, _ => rfl
  | n + 1, st => by
    unfold printLoopE printLoop
    refine bind_congr rfl fun r => ?_
    obtain ⟨o, st'⟩ := r
    cases o with
    | none => rfl
    | some id => exact bind_congr (writeDataE_ofFmt disp f id) fun _ => printLoopE_ofFmt disp f fl n st'

theorem innerE_ofFmt (disp : T → Fmt) (f : Forest T) (root : Nat) :
    innerE put (fun d => .ofFmt (disp d)) f root = inner put disp f root := by
  unfold innerE inner
  refine bind_congr rfl fun st => bind_congr rfl fun r => bind_congr (writeDataE_ofFmt disp f root) fun _ => ?_
  rw [printLoopE_ofFmt]

/-! ### The diary -/

theorem noting_sim {E : Type} (e : E) : ∀ (F : EFmt S) (c : List E),
    SimAt c (runFmtE (beside put) (F.noting e)) (runFmtE put F) (fun _ c' => c' = c ++ [e]) (fun c' => c' = c)
  | .ret true, c => fun w => ⟨c ++ [e], rfl, rfl⟩
  | .ret false, c => fun w => ⟨c, rfl, rfl⟩
  | .panic, c => fun w => ⟨c, rfl, rfl⟩
  | .write t k, c => by
    intro w
    simp only [EFmt.noting, runFmtE, Sim.writeStr t c w]
    cases writeStr put t w with
    | ok a w' => exact noting_sim e (k true) c w'
    | err w' => exact noting_sim e (k false) c w'
    | fail x w' => exact ⟨c, rfl, rfl⟩
  | .act g k, c => by
    intro w
    exact noting_sim e (k w.sink) c { w with sink := g w.sink }

theorem watch_sim (d : T) (c : List (Ev T)) :
    SimAt c (runFmtE (beside put) (watch disp d)) (runFmtE put (disp d)) (fun _ c' => c' = c ++ [.opn d, .cls d])
      (fun c' => c' = c ++ [.opn d]) := by
  intro w
  obtain ⟨c', h1, h2⟩ := noting_sim (put := put) (Ev.cls d) (disp d) (c ++ [.opn d]) w
  refine ⟨c', h1, ?_⟩
  revert h2
  cases runFmtE put (disp d) w with
  | ok a w' => intro h; rw [h]; simp
  | err w' => exact id
  | fail x w' => exact id

/-- The data of the nodes opened in the list. -/
def opens (f : Forest T) (L : List (Ev Nat)) : List T :=
  L.filterMap fun e => match e with
    | .opn y => f.getData y
    | .cls _ => none

theorem writeDataE_watch {y : Nat} {d : T} (hd : f.getData y = some d) (c : List (Ev T)) :
    SimAt c (writeDataE (beside put) (watch disp) f y) (writeDataE put disp f y)
      (fun _ c' => c' = c ++ [.opn d, .cls d]) (fun c' => c' = c ++ [.opn d]) := by
  unfold writeDataE
  rw [hd, expect_some, ofR_bind, ofR_bind]
  exact watch_sim d c

theorem flatW_watch (lastOf : Nat → Bool) (D : List (Ev T)) : ∀ (L : List (Ev Nat)) (c : List (Ev T)), c ≠ [] →
    (∀ y, Ev.opn y ∈ L → ∃ d, f.getData y = some d) → c ++ diary (opens f L) = D →
    SimAt c (flatW (beside put) (writeDataE (beside put) (watch disp) f) lastOf L)
      (flatW put (writeDataE put disp f) lastOf L) (fun L' c' => c' ≠ [] ∧ c' ++ diary (opens f L') = D)
      (fun c' => c' ≠ [] ∧ c' <+: D)
  | [], c, hc, _, h => fun w => ⟨c, rfl, hc, h⟩
  | .cls y :: L, c, hc, hd, h => by
    unfold flatW
    have h' : c ++ diary (opens f L) = D := by simpa [opens] using h
    refine SimAt.bind ((SimAt.of_sim Sim.closeItem c).mono (fun _ _ h => h) ?_) ?_
    · rintro c' rfl; exact ⟨hc, ⟨_, h⟩⟩
    · rintro ok c' rfl
      cases ok with
      | false => exact fun w => ⟨c', rfl, hc, h'⟩
      | true => exact flatW_watch lastOf D L c' hc (fun y hy => hd y (by simp [hy])) h'
  | .opn y :: L, c, hc, hd, h => by
    unfold flatW
    obtain ⟨d, hy⟩ := hd y (by simp)
    have h' : (c ++ [.opn d, .cls d]) ++ diary (opens f L) = D := by
      rw [← h]; simp [opens, hy, diary]
    refine SimAt.bind ((SimAt.of_sim (Sim.openItem _) c).mono (fun _ _ h => h) ?_) ?_
    · rintro c' rfl; exact ⟨hc, ⟨_, h⟩⟩
    · rintro _ c' rfl
      refine SimAt.bind ((writeDataE_watch hy c').mono (fun _ _ h => h) ?_) ?_
      · rintro c'' rfl
        refine ⟨by simp, [.cls d] ++ diary (opens f L), ?_⟩
        rw [← h']; simp
      · rintro _ c'' rfl
        exact flatW_watch lastOf D L _ (by simp) (fun y hy => hd y (by simp [hy])) h'

theorem opens_events_aux (f : Forest T) (A B : List (Ev Nat)) : opens f (A ++ B) = opens f A ++ opens f B := by
  simp [opens, List.filterMap_append]

mutual
theorem opens_events (f : Forest T) : ∀ t : Tree Nat, opens f t.events = t.preorder.filterMap f.getData
  | .node x ts => by
    have := opens_eventsL f ts
    simp only [Tree.events, Tree.preorder]
    rw [List.filterMap_cons, ← this]
    cases h : f.getData x with
    | none => simp [opens, h]
    | some d => simp [opens, h]
theorem opens_eventsL (f : Forest T) : ∀ ts : List (Tree Nat),
    opens f (Tree.eventsL ts) = (Tree.preorderL ts).filterMap f.getData
  | [] => rfl
  | t :: ts => by
    simp only [Tree.eventsL, Tree.preorderL, List.filterMap_append, opens_events_aux, opens_events f t,
      opens_eventsL f ts]
end

/-! ### The whole printing -/

theorem flatW_suffix (wd : Nat → P S Unit) (lastOf : Nat → Bool) : ∀ (L : List (Ev Nat)) (w : Writer S) (L' : List (Ev Nat))
    (w' : Writer S), flatW put wd lastOf L w = .ok L' w' → L' <:+ L
  | [], w, L', w', h => by
    cases h; exact List.suffix_refl _
  | .cls y :: L, w, L', w', h => by
    rw [flatW, P.run_bind] at h
    cases h1 : closeItem w with
    | err _ => rw [h1] at h; cases h
    | fail _ _ => rw [h1] at h; cases h
    | ok ok w1 =>
      rw [h1] at h
      cases ok with
      | false => cases h; exact List.suffix_cons _ _
      | true => exact (flatW_suffix wd lastOf L _ _ _ h).trans (List.suffix_cons _ _)
  | .opn y :: L, w, L', w', h => by
    rw [flatW, P.run_bind] at h
    cases h1 : openItem put (lastOf y) w with
    | err _ => rw [h1] at h; cases h
    | fail _ _ => rw [h1] at h; cases h
    | ok _ w1 =>
      rw [h1] at h
      simp only [P.run_bind] at h
      cases h2 : wd y w1 with
      | err _ => rw [h2] at h; cases h
      | fail _ _ => rw [h2] at h; cases h
      | ok _ w2 =>
        rw [h2] at h
        exact (flatW_suffix wd lastOf L _ _ _ h).trans (List.suffix_cons _ _)

theorem SimAt.also {c : C} {m : P (S × C) α} {m0 : P S α} {Q : α → C → Prop} {Qb : C → Prop} {R : α → Prop}
    (h : SimAt c m m0 Q Qb) (hR : ∀ w a w', m0 w = .ok a w' → R a) : SimAt c m m0 (fun a c' => Q a c' ∧ R a) Qb := by
  intro w
  obtain ⟨c', h1, h2⟩ := h w
  refine ⟨c', h1, ?_⟩
  cases hm : m0 w with
  | ok a w' => rw [hm] at h2; exact ⟨h2, hR w a w' hm⟩
  | err w' => rw [hm] at h2; exact h2
  | fail e w' => rw [hm] at h2; exact h2

/-- The last step of the printing, the assertion that nothing is left. -/
theorem assertion_sim {h : Hier} {L : List (Ev Nat)} (w : Dft.next h (ends L) = .ok (L.head?, ends L.tail)) {c : C} {Qe Qb : C → Prop}
    (h1 : L = [] → Qe c) (h2 : Qb c) :
    SimAt c (P.ofR (Dft.next h (ends L)) >>= fun r =>
        P.when r.1.isSome (P.throw (.panic "assertion failed: traverser.next(hierarchy).is_none()")))
      (P.ofR (Dft.next h (ends L)) >>= fun r =>
        P.when r.1.isSome (P.throw (.panic "assertion failed: traverser.next(hierarchy).is_none()")) : P S Unit)
      (fun _ c' => Qe c') Qb := by
  intro wr
  rw [w, ofR_bind, ofR_bind]
  cases L with
  | nil => exact ⟨c, rfl, h1 rfl⟩
  | cons e L => exact ⟨c, rfl, h2⟩

theorem wholeW_sim {s : Shape} (hm : Models f s) {t : Tree Nat} (ht : Tree.IsTree s.kids t) (hx : s.alive t.root = true)
    {wd : Nat → P (S × C) Unit} {wd0 : Nat → P S Unit} {c : C} {Q1 : C → Prop} {Q : List (Ev Nat) → C → Prop} {Qe Qb : C → Prop}
    (h1 : SimAt c (wd t.root) (wd0 t.root) (fun _ c' => Q1 c') Qb)
    (h2 : ∀ c, Q1 c → SimAt c (flatW (beside put) wd (lastFlag s) t.events.tail) (flatW put wd0 (lastFlag s) t.events.tail)
      Q Qb)
    (h3 : ∀ c, Q [] c → Qe c) (h4 : ∀ L c, Q L c → Qb c) :
    SimAt c (wholeW (beside put) wd (lastFlag s) f.hier t.root t.events.tail)
      (wholeW put wd0 (lastFlag s) f.hier t.root t.events.tail) (fun _ c' => Qe c') Qb := by
  have wk := (dft_walk hm ht hx).tail
  refine SimAt.bind h1 fun _ c1 hc1 => ?_
  refine SimAt.bind ((h2 c1 hc1).also (R := fun L' => L' <:+ t.events.tail)
    fun w a w' h => flatW_suffix _ _ _ w a w' h) fun L' c2 hc2 => ?_
  exact assertion_sim (Walk.suffix wk hc2.2).deNext (by rintro rfl; exact h3 _ hc2.1) (h4 _ _ hc2.1)

theorem innerE_watch (hm : Models f s) {t : Tree Nat} (ht : Tree.IsTree s.kids t) (hx : s.alive t.root = true) :
    SimAt [] (innerE (beside put) (watch disp) f t.root) (innerE put disp f t.root)
      (fun _ c => c = diary (t.preorder.filterMap f.getData))
      (fun c => c ≠ [] ∧ c <+: diary (t.preorder.filterMap f.getData)) := by
  rw [innerE_eq hm ht hx, innerE_eq hm ht hx]
  cases t with
  | node x ts =>
    have halive : ∀ y ∈ (Tree.node x ts).preorder, ∃ d, f.getData y = some d := fun y hy =>
      Option.isSome_iff_exists.1 ((hm.dataAlive y).trans (Tree.mem_alive hm.valid ht hx hy))
    obtain ⟨d, hd⟩ := halive x (by simp [Tree.preorder])
    have htail : (Tree.node x ts).events.tail = Tree.eventsL ts ++ [.cls x] := by simp [Tree.events]
    have hop : opens f (Tree.node x ts).events.tail = (Tree.preorderL ts).filterMap f.getData := by
      rw [htail, opens_events_aux, opens_eventsL]; simp [opens]
    have hD : diary ((Tree.node x ts).preorder.filterMap f.getData)
        = [.opn d, .cls d] ++ diary ((Tree.preorderL ts).filterMap f.getData) := by
      simp [Tree.preorder, hd, diary]
    refine wholeW_sim hm ht hx (Q1 := fun c => c = [.opn d, .cls d])
      (Q := fun L' c' => c' ≠ [] ∧ c' ++ diary (opens f L') = diary ((Tree.node x ts).preorder.filterMap f.getData))
      ((writeDataE_watch hd []).mono (fun _ c' (h : c' = [] ++ [.opn d, .cls d]) => h) ?_) ?_ ?_ ?_
    · rintro c' rfl
      refine ⟨by simp, .cls d :: diary ((Tree.preorderL ts).filterMap f.getData), ?_⟩
      rw [hD]; simp
    · rintro c rfl
      refine flatW_watch (lastFlag s) _ _ _ (by simp) (fun y hy => halive y ?_) (by rw [hop, hD])
      have : Ev.opn y ∈ (Tree.node x ts).events := List.mem_of_mem_tail hy
      exact (Tree.mem_events_iff _ y).1.1 this
    · rintro c ⟨_, h⟩; simpa [opens, diary] using h
    · rintro L c ⟨h1, h2⟩; exact ⟨h1, ⟨_, h2⟩⟩

/-! ### Formatters with a state of their own -/

/-- The nodes opened in the list. -/
def opened (L : List (Ev Nat)) : List Nat :=
  L.filterMap fun e => match e with
    | .opn y => some y
    | .cls _ => none

theorem opened_append (A B : List (Ev Nat)) : opened (A ++ B) = opened A ++ opened B := by
  simp [opened, List.filterMap_append]

mutual
theorem opened_events : ∀ t : Tree Nat, opened t.events = t.preorder
  | .node x ts => by
    have := opened_eventsL ts
    simp only [Tree.events, Tree.preorder]
    rw [← this]; simp [opened]
theorem opened_eventsL : ∀ ts : List (Tree Nat), opened (Tree.eventsL ts) = Tree.preorderL ts
  | [] => rfl
  | t :: ts => by simp only [Tree.eventsL, Tree.preorderL, opened_append, opened_events t, opened_eventsL ts]
end

theorem takeWhile_before {P R : List Nat} {y : Nat} (h : (P ++ y :: R).Nodup) :
    (P ++ y :: R).takeWhile (· ≠ y) = P := by
  induction P with
  | nil => simp
  | cons p P ih =>
    have hp : p ≠ y := by
      rintro rfl
      exact (List.nodup_cons.1 h).1 (by simp)
    simp only [List.cons_append, List.takeWhile_cons, ne_eq, hp, not_false_eq_true, decide_true, if_true]
    congr 1
    exact ih (List.nodup_cons.1 h).2

variable {say : C → T → List Text} {nxt : C → T → C}

theorem numbered_sim (d : T) (c : C) (w : Writer S) :
    runFmtE (beside put) (numbered say nxt d) (w.up c) = (runFmt put (.ofPieces true (say c d)) w).up (nxt c d) :=
  Sim.runFmt (put := put) (.ofPieces true (say c d)) (nxt c d) w

/-- The forest with every datum replaced by its node. -/
def tagged (f : Forest T) : Forest Nat := ⟨f.hier, f.data.mapIdx fun i o => o.map fun _ => i⟩

theorem tagged_getData (f : Forest T) (y : Nat) : (tagged f).getData y = (f.getData y).map fun _ => y := by
  simp only [tagged, Forest.getData, List.getElem?_mapIdx]
  cases f.data[y]? <;> rfl

theorem tagged_models (hm : Models f s) : Models (tagged f) s where
  valid := hm.valid
  repr := hm.repr
  dataLen := by simpa [tagged] using hm.dataLen
  dataAlive x := by rw [tagged_getData, Option.isSome_map]; exact hm.dataAlive x

/-- The pieces written for a node. -/
def labAt (say : C → T → List Text) (nxt : C → T → C) (dat : Nat → T) (c : C) (N : List Nat) (y : Nat) : List Text :=
  say (tally nxt c ((N.takeWhile (· ≠ y)).map dat)) (dat y)

theorem tally_snoc (c : C) (D : List T) (d : T) : tally nxt c (D ++ [d]) = nxt (tally nxt c D) d := by
  simp [tally]

theorem writeDataE_numbered {dat : Nat → T} {c0 : C} {N P R : List Nat} {y : Nat} (hN : N.Nodup) (hP : P ++ y :: R = N)
    (hd : f.getData y = some (dat y)) :
    SimAt (tally nxt c0 (P.map dat)) (writeDataE (beside put) (numbered say nxt) f y)
      (writeData put (fun y => .ofPieces true (labAt say nxt dat c0 N y)) (tagged f) y)
      (fun _ c' => c' = tally nxt c0 ((P ++ [y]).map dat)) (fun c' => c' = tally nxt c0 ((P ++ [y]).map dat)) := by
  have hl : labAt say nxt dat c0 N y = say (tally nxt c0 (P.map dat)) (dat y) := by
    rw [labAt, ← hP, takeWhile_before (by rw [hP]; exact hN)]
  have hs : tally nxt c0 ((P ++ [y]).map dat) = nxt (tally nxt c0 (P.map dat)) (dat y) := by
    rw [List.map_append]; exact tally_snoc _ _ _
  unfold writeDataE writeData
  rw [tagged_getData, hd, expect_some, Option.map_some, expect_some, ofR_bind, ofR_bind]
  dsimp only
  rw [hl, hs]
  intro w
  refine ⟨_, numbered_sim _ _ w, ?_⟩
  cases runFmt put (.ofPieces true (say (tally nxt c0 (P.map dat)) (dat y))) w <;> rfl

theorem flatW_numbered {dat : Nat → T} {c0 : C} {N : List Nat} (hN : N.Nodup) (lastOf : Nat → Bool)
    (hd : ∀ y ∈ N, f.getData y = some (dat y)) : ∀ (L : List (Ev Nat)) (P : List Nat), P ≠ [] → P ++ opened L = N →
    SimAt (tally nxt c0 (P.map dat)) (flatW (beside put) (writeDataE (beside put) (numbered say nxt) f) lastOf L)
      (flatW put (writeData put (fun y => .ofPieces true (labAt say nxt dat c0 N y)) (tagged f)) lastOf L)
      (fun L' c' => ∃ P, P ≠ [] ∧ P ++ opened L' = N ∧ c' = tally nxt c0 (P.map dat))
      (fun c' => ∃ P, P ≠ [] ∧ P <+: N ∧ c' = tally nxt c0 (P.map dat))
  | [], P, hP, h => fun w => ⟨_, rfl, P, hP, h, rfl⟩
  | .cls y :: L, P, hP, h => by
    unfold flatW
    have h' : P ++ opened L = N := by simpa [opened] using h
    refine SimAt.bind ((SimAt.of_sim Sim.closeItem _).mono (fun _ _ h => h) ?_) ?_
    · rintro c' rfl; exact ⟨P, hP, ⟨_, h⟩, rfl⟩
    · rintro ok c' rfl
      cases ok with
      | false => exact fun w => ⟨_, rfl, P, hP, h', rfl⟩
      | true => exact flatW_numbered hN lastOf hd L P hP h'
  | .opn y :: L, P, hP, h => by
    unfold flatW
    have h' : P ++ y :: opened L = N := by simpa [opened] using h
    have h'' : (P ++ [y]) ++ opened L = N := by simpa using h'
    refine SimAt.bind ((SimAt.of_sim (Sim.openItem _) _).mono (fun _ _ h => h) ?_) ?_
    · rintro c' rfl; exact ⟨P, hP, ⟨_, h⟩, rfl⟩
    · rintro _ c' rfl
      refine SimAt.bind ((writeDataE_numbered hN h' (hd y (by rw [← h']; simp))).mono (fun _ _ h => h) ?_) ?_
      · rintro c'' rfl
        exact ⟨P ++ [y], by simp, ⟨_, h''⟩, rfl⟩
      · rintro _ c'' rfl
        exact flatW_numbered hN lastOf hd L (P ++ [y]) (by simp) h''

theorem innerE_numbered (hm : Models f s) {t : Tree Nat} (ht : Tree.IsTree s.kids t) (hx : s.alive t.root = true)
    {dat : Nat → T} (hd : ∀ y ∈ t.preorder, f.getData y = some (dat y)) (c : C) :
    SimAt c (innerE (beside put) (numbered say nxt) f t.root)
      (inner put (fun y => .ofPieces true (labAt say nxt dat c t.preorder y)) (tagged f) t.root)
      (fun _ c' => c' = tally nxt c (t.preorder.map dat))
      (fun c' => ∃ P, P ≠ [] ∧ P <+: t.preorder ∧ c' = tally nxt c (P.map dat)) := by
  rw [innerE_eq hm ht hx, inner_whole (tagged_models hm) ht hx]
  have hnd := Tree.preorder_nodup hm.valid t ht
  cases t with
  | node x ts =>
    have htail : (Tree.node x ts).events.tail = Tree.eventsL ts ++ [.cls x] := by simp [Tree.events]
    have hop : opened (Tree.node x ts).events.tail = Tree.preorderL ts := by
      rw [htail, opened_append, opened_eventsL]; simp [opened]
    have hN : [] ++ x :: Tree.preorderL ts = (Tree.node x ts).preorder := by simp [Tree.preorder]
    refine wholeW_sim hm ht hx (Q1 := fun c' => c' = tally nxt c ([x].map dat))
      (Q := fun L' c' => ∃ P, P ≠ [] ∧ P ++ opened L' = (Tree.node x ts).preorder ∧ c' = tally nxt c (P.map dat))
      ((writeDataE_numbered hnd hN (hd x (by simp [Tree.preorder]))).mono (fun _ _ h => h) ?_) ?_ ?_ ?_
    · rintro c' rfl
      exact ⟨[x], by simp, ⟨Tree.preorderL ts, by simp [Tree.preorder]⟩, rfl⟩
    · rintro c' rfl
      exact flatW_numbered hnd (lastFlag s) hd _ [x] (by simp) (by rw [hop]; simp [Tree.preorder])
    · rintro c' ⟨P, h1, h2, rfl⟩
      have : P = (Tree.node x ts).preorder := by simpa [opened] using h2
      rw [this]
    · rintro L c' ⟨P, h1, h2, rfl⟩; exact ⟨P, h1, ⟨_, h2⟩, rfl⟩

/-! ### Never a panic -/

variable {wd : Nat → P S Unit}

mutual
theorem calmW_tree (lastOf : Nat → Bool) : ∀ (t : Tree Nat),
    (∀ y ∈ t.preorder, Calm (wd y) SameLen) → ∀ (R : List (Ev Nat)) (n : Nat) (r : List (Ev Nat)),
    (∀ w : Writer S, w.indents.length = n → match flatW put wd lastOf R w with
      | .ok a _ => a = r
      | .err _ => True
      | .fail _ _ => False) →
    ∀ w : Writer S, w.indents.length = n → match flatW put wd lastOf (t.events ++ R) w with
      | .ok a _ => a = r
      | .err _ => True
      | .fail _ _ => False
  | .node x ts, hd, R, n, r, hR, w, hw => by
    have hev : (Tree.node x ts).events ++ R = .opn x :: (Tree.eventsL ts ++ (.cls x :: R)) := by
      simp [Tree.events]
    rw [hev, flatW]
    simp only [P.run_bind]
    have h1 := calm_openItem (put := put) (lastOf x) w
    cases ho : openItem put (lastOf x) w with
    | err _ => trivial
    | fail e w1 => rw [ho] at h1; exact h1
    | ok a w1 =>
      rw [ho] at h1
      simp only
      have h2 := hd x (by simp [Tree.preorder]) w1
      cases hwd : wd x w1 with
      | err _ => trivial
      | fail e w2 => rw [hwd] at h2; exact h2
      | ok a w2 =>
        rw [hwd] at h2
        simp only
        refine calmW_forest lastOf ts (fun y hy => hd y (by simp [Tree.preorder, hy])) (.cls x :: R) (n + 1) r
          (fun w3 hw3 => ?_) w2 (by simp only [SameLen] at h2; omega)
        rw [flatW]
        have hne : w3.indents ≠ [] := by intro e; rw [e] at hw3; simp at hw3
        obtain ⟨j, hj⟩ : ∃ j, w3.indents.getLast? = some j :=
          ⟨_, List.getLast?_eq_some_getLast hne⟩
        have hc : (closeItem w3 : Out (Writer S) Bool) = .ok true { w3 with indents := w3.indents.dropLast } := by
          unfold closeItem
          simp only [P.run_bind, P.run_indents, hj, P.run_modify, P.run_pure]
        simp only [P.run_bind, hc, if_true]
        exact hR _ (by simp [hw3])
theorem calmW_forest (lastOf : Nat → Bool) : ∀ (ts : List (Tree Nat)),
    (∀ y ∈ Tree.preorderL ts, Calm (wd y) SameLen) → ∀ (R : List (Ev Nat)) (n : Nat) (r : List (Ev Nat)),
    (∀ w : Writer S, w.indents.length = n → match flatW put wd lastOf R w with
      | .ok a _ => a = r
      | .err _ => True
      | .fail _ _ => False) →
    ∀ w : Writer S, w.indents.length = n → match flatW put wd lastOf (Tree.eventsL ts ++ R) w with
      | .ok a _ => a = r
      | .err _ => True
      | .fail _ _ => False
  | [], _, R, n, r, hR, w, hw => by simpa [Tree.eventsL] using hR w hw
  | t :: ts, hd, R, n, r, hR, w, hw => by
    rw [Tree.eventsL, List.append_assoc]
    exact calmW_tree lastOf t (fun y hy => hd y (by simp [Tree.preorderL, hy])) (Tree.eventsL ts ++ R) n r
      (calmW_forest lastOf ts (fun y hy => hd y (by simp [Tree.preorderL, hy])) R n r hR) w hw
end

theorem calm_runFmtE : ∀ (F : EFmt S), F.calm → Calm (runFmtE put F) SameLen
  | .ret ok, _ => by
    intro w
    cases ok <;> exact rfl
  | .panic, h => h.elim
  | .write t k, h => by
    intro w
    have h0 := calm_writeStrLoop (put := put) t.length t (Nat.le_refl _) w
    simp only [runFmtE, writeStr]
    cases hw : writeStrLoop put t.length t w with
    | fail e w1 => rw [hw] at h0; exact h0
    | ok a w1 =>
      rw [hw] at h0
      have := calm_runFmtE (k true) (h true) w1
      simp only
      cases hr : runFmtE put (k true) w1 with
      | fail e w2 => rw [hr] at this; exact this
      | ok a w2 => rw [hr] at this; exact Eq.trans this h0
      | err w2 => rw [hr] at this; exact Eq.trans this h0
    | err w1 =>
      rw [hw] at h0
      have := calm_runFmtE (k false) (h false) w1
      simp only
      cases hr : runFmtE put (k false) w1 with
      | fail e w2 => rw [hr] at this; exact this
      | ok a w2 => rw [hr] at this; exact Eq.trans this h0
      | err w2 => rw [hr] at this; exact Eq.trans this h0
  | .act g k, h => by
    intro w
    exact calm_runFmtE (k w.sink) (h w.sink) { w with sink := g w.sink }

theorem calmE_inner (hm : Models f s) {t : Tree Nat} (ht : Tree.IsTree s.kids t)
    (hx : s.alive t.root = true) (hp : ∀ y d, f.getData y = some d → (disp d).calm) (σ : S) :
    ∀ e w, innerE put disp f t.root (Writer.new σ) ≠ .fail e w := by
  intro e w hrun
  rw [innerE_eq hm ht hx, wholeW] at hrun
  have hdata : ∀ y ∈ t.preorder, Calm (writeDataE put disp f y) SameLen := fun y hy => by
    have : (f.getData y).isSome = true := by rw [hm.dataAlive]; exact Tree.mem_alive hm.valid ht hx hy
    obtain ⟨d, hd⟩ := Option.isSome_iff_exists.1 this
    unfold writeDataE
    rw [hd, expect_some, ofR_bind]
    exact calm_runFmtE _ (hp y d hd)
  cases t with
  | node x ts =>
    simp only [P.run_bind, Tree.root] at hrun
    have h1 := hdata x (by simp [Tree.preorder]) (Writer.new σ)
    cases hw : writeDataE put disp f x (Writer.new σ) with
    | err w1 => rw [hw] at hrun; simp at hrun
    | fail e w1 => rw [hw] at h1; exact h1
    | ok a w1 =>
      rw [hw] at hrun h1
      simp only at hrun
      have htail : (Tree.node x ts).events.tail = Tree.eventsL ts ++ [.cls x] := by simp [Tree.events]
      rw [htail] at hrun
      have h2 := calmW_forest (put := put) (wd := writeDataE put disp f) (lastFlag s) ts
        (fun y hy => hdata y (by simp [Tree.preorder, hy])) [.cls x] 0 [] (fun w hw => by
          have : w.indents = [] := List.eq_nil_of_length_eq_zero hw
          rw [flatW]
          have hc : (closeItem w : Out (Writer S) Bool) = .ok false w := by
            unfold closeItem
            simp only [P.run_bind, P.run_indents, this, List.getLast?_nil, P.run_pure]
          simp only [P.run_bind, hc, Bool.false_eq_true, if_false, P.run_pure]) w1 (by
            simpa [SameLen, Writer.new] using h1)
      cases hf : flatW put (writeDataE put disp f) (lastFlag s) (Tree.eventsL ts ++ [.cls x]) w1 with
      | err w2 => rw [hf] at hrun; simp at hrun
      | fail e w2 => rw [hf] at h2; exact h2
      | ok a w2 =>
        rw [hf] at hrun h2
        simp only at h2
        subst h2
        have : Dft.next f.hier (ends []) = .ok (none, none) := rfl
        simp only [this, P.run_ofR_ok, P.when] at hrun
        simp at hrun

end DebugPrint
end Treena
