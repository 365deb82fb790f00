import Verif.Proof.FuelCount
import Verif.Proof.FuelLoops
import Verif.Proof.Render
import Verif.Proof.Hang
/-!
# Enough fuel for `debug_print`

The loop of `debug_print` never ends in some corrupted forests.  Here it is shown, for a sink that does not fail, that the
fuel of the model is exhausted only in that case: with any amount of additional fuel the result is the same.
-/
set_option autoImplicit false

namespace Treena
open DebugPrint Fuel
variable {S T α β : Type} {put : S → Text → Except S S} {disp : T → Fmt} {f : Forest T}

/-- The sink never fails. -/
def Total (put : S → Text → Except S S) : Prop := ∀ σ t, ∃ σ', put σ t = .ok σ'

/-- The function does not return `Err`. -/
def Unerring (m : P S α) : Prop := ∀ w w', m w ≠ .err w'

namespace Unerring

theorem pure (a : α) : Unerring (Pure.pure a : P S α) := nofun
theorem bind {m : P S α} {k : α → P S β} (h : Unerring m) (hk : ∀ a, Unerring (k a)) : Unerring (m >>= k) := by
  intro w w'
  simp only [P.run_bind]
  cases hm : m w with
  | ok a w1 => exact hk a w1 w'
  | err w1 => exact absurd hm (h w w1)
  | fail e w1 => nofun
theorem when {b : Bool} {m : P S Unit} (h : Unerring m) : Unerring (P.when b m) := by
  intro w w'
  unfold P.when
  split
  · exact h w w'
  · nofun
theorem throw (e : Fail) : Unerring (P.throw e : P S α) := nofun
theorem setLine (l : LineState) : Unerring (setLine l : P S Unit) := nofun
theorem modify (g : Writer S → Writer S) : Unerring (P.modify g) := nofun
theorem emit (hp : Total put) (t : Text) : Unerring (emit put t) := by
  intro w w'
  obtain ⟨σ', h⟩ := hp w.sink t
  unfold DebugPrint.emit
  rw [h]
  nofun
theorem emitAll (hp : Total put) : ∀ is, Unerring (emitAll put is)
  | [] => pure ()
  | i :: l => bind (emit hp _) fun _ => emitAll hp l
theorem line : Unerring (P.line : P S LineState) := nofun
theorem indents : Unerring (P.indents : P S (List IndentLevel)) := nofun
theorem partialIndent (hp : Total put) : Unerring (writeIndentPartial put) := by
  refine bind indents fun is => ?_
  cases (stripRev is.reverse).reverse.getLast? with
  | none => exact pure ()
  | some l => exact bind (emitAll hp _) fun _ => emit hp _
theorem complete (hp : Total put) : Unerring (completePartialIndent put) := by
  refine bind line fun l => bind (when (throw _)) fun _ => bind indents fun is => ?_
  cases is.getLast? with
  | none => exact pure ()
  | some l => exact emit hp _
theorem startLine (hp : Total put) : Unerring (startLine put) :=
  bind line fun _ => when (bind (partialIndent hp) fun _ => setLine _)
theorem writeContent (hp : Total put) (c : Text) (nl : Bool) : Unerring (writeContent put c nl) :=
  when (bind line fun _ => bind (when (throw _)) fun _ => bind (when (complete hp)) fun _ => bind (emit hp _) fun _ => setLine _)
theorem writeStrLoop (hp : Total put) : ∀ n t, Unerring (writeStrLoop put n t)
  | 0, [] => pure ()
  | _ + 1, [] => pure ()
  | 0, _ :: _ => throw _
  | n + 1, c :: cs => bind (startLine hp) fun _ => bind (when (modify _)) fun _ => bind (writeContent hp _ _) fun _ => writeStrLoop hp n _
theorem openItem (hp : Total put) (last : Bool) : Unerring (openItem put last) :=
  bind line fun _ => bind (when (bind (emit hp _) fun _ => setLine _)) fun _ => bind (modify _) fun _ => modify _

end Unerring

theorem writeStr_ok (hp : Total put) (t : Text) (w : Writer S) : ∃ w', writeStr put t w = .ok () w' ∧ w'.indents.length = w.indents.length := by
  have h := calm_writeStrLoop (put := put) t.length t (Nat.le_refl _) w
  have h2 := Unerring.writeStrLoop hp t.length t w
  unfold writeStr
  cases e : writeStrLoop put t.length t w with
  | ok a w' => rw [e] at h; exact ⟨w', rfl, h⟩
  | err w' => exact absurd e (h2 w')
  | fail e' w' => rw [e] at h; exact h.elim

theorem openItem_ok (hp : Total put) (last : Bool) (w : Writer S) :
    ∃ w', openItem put last w = .ok () w' ∧ w'.indents.length = w.indents.length + 1 := by
  have h := calm_openItem (put := put) last w
  have h2 := Unerring.openItem hp last w
  cases e : openItem put last w with
  | ok a w' => rw [e] at h; exact ⟨w', rfl, h⟩
  | err w' => exact absurd e (h2 w')
  | fail e' w' => rw [e] at h; exact h.elim

/-- The formatter returns `Ok`, if writing does not fail. -/
def Fmt.fine : Fmt → Bool
  | .ret ok => ok
  | .panic => false
  | .write _ k => (k true).fine

/-- The function fails, but not by an endless loop. -/
def Stops (o : Out (Writer S) α) : Prop := (∃ w, o = .err w) ∨ ∃ m w, o = .fail (.panic m) w

theorem runFmt_fine (hp : Total put) : ∀ (F : Fmt) (w : Writer S), F.fine = true →
    ∃ w', runFmt put F w = .ok () w' ∧ w'.indents.length = w.indents.length
  | .ret ok, w, h => by
    have : ok = true := h
    subst this
    exact ⟨w, rfl, rfl⟩
  | .panic, _, h => by cases h
  | .write t k, w, h => by
    obtain ⟨w1, h1, h2⟩ := writeStr_ok hp t w
    obtain ⟨w2, h3, h4⟩ := runFmt_fine hp (k true) w1 h
    exact ⟨w2, by simp only [runFmt, h1, h3], h4.trans h2⟩

theorem runFmt_stops (hp : Total put) : ∀ (F : Fmt) (w : Writer S), F.fine = false → Stops (runFmt put F w)
  | .ret ok, w, h => by
    have : ok = false := h
    subst this
    exact .inl ⟨w, rfl⟩
  | .panic, w, _ => .inr ⟨_, w, rfl⟩
  | .write t k, w, h => by
    obtain ⟨w1, h1, -⟩ := writeStr_ok hp t w
    have := runFmt_stops hp (k true) w1 h
    simpa only [runFmt, h1] using this

/-- The data of the node is there and its formatter returns `Ok`. -/
def fineAt (disp : T → Fmt) (f : Forest T) (y : Nat) : Bool :=
  match f.getData y with
  | none => false
  | some d => (disp d).fine

theorem writeData_fine (hp : Total put) {y : Nat} (h : fineAt disp f y = true) (w : Writer S) :
    ∃ w', writeData put disp f y w = .ok () w' ∧ w'.indents.length = w.indents.length := by
  unfold fineAt at h
  unfold writeData
  split at h
  · cases h
  · rename_i e
    rw [e]
    exact runFmt_fine hp _ w h

theorem writeData_stops (hp : Total put) {y : Nat} (h : fineAt disp f y = false) (w : Writer S) : Stops (writeData put disp f y w) := by
  unfold fineAt at h
  unfold writeData
  split at h
  · rename_i e
    rw [e]
    exact .inr ⟨_, w, rfl⟩
  · rename_i e
    rw [e]
    exact runFmt_stops hp _ w h

/-- The next event, if the printing goes on after it (unless it closes an item and there is none). -/
def evStep (disp : T → Fmt) (f : Forest T) (st : Dft.St) : Option Dft.St :=
  match Dft.next f.hier st with
  | .ok (some (.cls _), st') => some st'
  | .ok (some (.opn id), st') =>
    match isLastSibling f.hier id with
    | .ok _ => if fineAt disp f id then some st' else none
    | .error _ => none
  | _ => none

/-- The next event opens an item. -/
def opens? : Dft.St → Bool
  | some (.opn _, _) => true
  | _ => false

theorem dft_event {h : Hier} {st st' : Dft.St} {e : Ev Nat} (hn : Dft.next h st = .ok (some e, st')) :
    ∃ b, st = some (e, b) ∧ ((e = b ∧ st' = none) ∨ (e ≠ b ∧ (∃ nb, h.neighbors e.node = some nb) ∧ ∀ p, st' = some p → p.2 = b)) := by
  unfold Dft.next deNext at hn
  split at hn
  · cases hn
  · rename_i nxt b
    split at hn
    · rename_i he
      cases hn
      exact ⟨b, rfl, .inl ⟨he, rfl⟩⟩
    · rename_i he
      have hlt : ∀ o, Dft.stepFwd h nxt = .ok o → ∃ nb, h.neighbors nxt.node = some nb := by
        intro o ho
        cases nxt with
        | opn id =>
          simp only [Dft.stepFwd, travNbr] at ho
          cases hnb : h.neighbors id with
          | none => rw [hnb] at ho; simp [expect] at ho
          | some nb => exact ⟨nb, hnb⟩
        | cls id =>
          simp only [Dft.stepFwd, travNbr] at ho
          cases hnb : h.neighbors id with
          | none => rw [hnb] at ho; simp [expect] at ho
          | some nb => exact ⟨nb, hnb⟩
      split at hn
      · cases hn
      · rename_i nn hs
        cases hn
        exact ⟨b, rfl, .inr ⟨he, hlt _ hs, fun p hp => by cases hp; rfl⟩⟩
      · rename_i hs
        cases hn
        exact ⟨b, rfl, .inr ⟨he, hlt _ hs, nofun⟩⟩

theorem evStep_next {st st' : Dft.St} (h : evStep disp f st = some st') : ∃ e, Dft.next f.hier st = .ok (some e, st') := by
  unfold evStep at h
  split at h
  · rename_i hn; cases h; exact ⟨_, hn⟩
  · rename_i hn
    split at h
    · split at h <;> cases h
      exact ⟨_, hn⟩
    · cases h
  · cases h

theorem evStep_none : evStep disp f none = none := rfl

/-- Printing from here goes on for ever. -/
def PrintsOn (disp : T → Fmt) (f : Forest T) (st : Dft.St) (k : Nat) : Prop := ∀ n, Goes (cstep (evStep disp f) opens?) n (st, k)

/-- The fuel is enough to see that a walk never ends. -/
theorem prints_on {st : Dft.St} (hg : Goes (cstep (evStep disp f) opens?) (fuel f.hier) (st, 0)) : PrintsOn disp f st 0 := by
  intro k
  cases st with
  | none =>
    obtain ⟨s', h, -⟩ : Goes (cstep (evStep disp f) opens?) 1 ((none : Dft.St), 0) := goes_le (by unfold fuel; omega) hg
    exact absurd (cstep_fst h) nofun
  | some p =>
    have look : ∀ s s' s'' : Dft.St, (∀ q, s = some q → q.2 = p.2) → evStep disp f s = some s' → evStep disp f s' = some s'' →
        ∃ e, s = some (e, p.2) ∧ e.node < f.hier.nbrs.length := by
      intro s s' s'' hs h1 h2
      obtain ⟨e, hn⟩ := evStep_next h1
      obtain ⟨b, rfl, hc⟩ := dft_event hn
      have hb : b = p.2 := hs _ rfl
      subst hb
      rcases hc with ⟨-, rfl⟩ | ⟨-, ⟨nb, hl⟩, -⟩
      · cases h2
      · exact ⟨e, rfl, nbr_lt hl⟩
    refine counter_forever (M := 2 * f.hier.nbrs.length + 2) (fun s : Dft.St => ∀ q, s = some q → q.2 = p.2) ?_
      (fun s => match s with | none => 0 | some q => evCode f.hier.nbrs.length q.1) ?_ ?_ (fun q hq => by cases hq; rfl) hg k
    · intro s s' hs h1
      obtain ⟨e, hn⟩ := evStep_next h1
      obtain ⟨b, rfl, hc⟩ := dft_event hn
      have hb : b = p.2 := hs _ rfl
      subst hb
      rcases hc with ⟨-, rfl⟩ | ⟨-, -, h3⟩
      · nofun
      · exact h3
    · intro s s' s'' hs h1 h2
      obtain ⟨e, rfl, he⟩ := look s s' s'' hs h1 h2
      have := evCode_lt f.hier.nbrs.length e
      dsimp only
      omega
    · intro s s' s'' t t' t'' hs ht h1 h2 h3 h4 e
      obtain ⟨e1, rfl, he1⟩ := look s s' s'' hs h1 h2
      obtain ⟨e2, rfl, he2⟩ := look t t' t'' ht h3 h4
      rw [evCode_inj (b := 0) (.inl he1) (.inl he2) e]

/-! ### The endless case -/

theorem on_cls {st st' : Dft.St} {id k : Nat} (hn : Dft.next f.hier st = .ok (some (.cls id), st')) (h : PrintsOn disp f st k) :
    ∃ j, k = j + 1 ∧ PrintsOn disp f st' j := by
  obtain ⟨b, rfl, -⟩ := dft_event hn
  have e : evStep disp f (some (.cls id, b)) = some st' := by unfold evStep; rw [hn]
  cases k with
  | zero =>
    obtain ⟨s', h1, -⟩ := h 1
    simp [cstep, e, opens?] at h1
  | succ j =>
    refine ⟨j, rfl, fun n => ?_⟩
    obtain ⟨s', h1, h2⟩ := h (n + 1)
    simp [cstep, e, opens?] at h1
    subst h1
    exact h2

theorem on_opn {st st' : Dft.St} {id k : Nat} (hn : Dft.next f.hier st = .ok (some (.opn id), st')) (h : PrintsOn disp f st k) :
    (∃ b, isLastSibling f.hier id = .ok b) ∧ fineAt disp f id = true ∧ PrintsOn disp f st' (k + 1) := by
  obtain ⟨b, rfl, -⟩ := dft_event hn
  obtain ⟨s', h1, -⟩ := h 1
  have h2 := cstep_fst h1
  unfold evStep at h2
  rw [hn] at h2
  dsimp only at h2
  split at h2
  · rename_i b' hb
    split at h2
    · rename_i hf
      refine ⟨⟨b', hb⟩, hf, fun n => ?_⟩
      have e : evStep disp f (some (.opn id, b)) = some st' := by
        unfold evStep; rw [hn]; dsimp only; rw [hb]; simp only [hf, if_true]
      obtain ⟨s2, h3, h4⟩ := h (n + 1)
      simp [cstep, e, opens?] at h3
      subst h3
      exact h4
    · cases h2
  · cases h2

theorem prepare_on (hp : Total put) : ∀ (G : Nat) (st : Dft.St) (w : Writer S), PrintsOn disp f st w.indents.length →
    (∃ w', prepareNext put f.hier G st w = .fail .diverge w') ∨
    ∃ id st' w', prepareNext put f.hier G st w = .ok (some id, st') w' ∧ fineAt disp f id = true ∧ PrintsOn disp f st' w'.indents.length
  | 0, _, w, _ => .inl ⟨w, rfl⟩
  | G + 1, st, w, h => by
    obtain ⟨s', h1, -⟩ := h 1
    obtain ⟨e, hn⟩ := evStep_next (cstep_fst h1)
    unfold prepareNext
    rw [hn, ofR_bind]
    cases e with
    | cls id =>
      obtain ⟨j, hj, h2⟩ := on_cls hn h
      have hcl : closeItem w = .ok true { w with indents := w.indents.dropLast } := by
        unfold closeItem
        simp only [P.run_bind, P.run_indents]
        cases hl : w.indents.getLast? with
        | none => rw [List.getLast?_eq_none_iff] at hl; rw [hl] at hj; cases hj
        | some _ => rfl
      simp only [P.run_bind, hcl, if_true]
      exact prepare_on hp G s'.1 _ (by rw [List.length_dropLast, hj]; exact h2)
    | opn id =>
      obtain ⟨⟨b, hb⟩, hf, h2⟩ := on_opn hn h
      obtain ⟨w', ho, hl⟩ := openItem_ok hp b w
      refine .inr ⟨id, s'.1, w', ?_, hf, by rw [hl]; exact h2⟩
      simp only [P.run_bind, hb, P.run_ofR_ok, ho, P.run_pure]

theorem printLoop_on (hp : Total put) (G : Nat) : ∀ (F : Nat) (st : Dft.St) (w : Writer S), PrintsOn disp f st w.indents.length →
    ∃ w', printLoop put disp f G F st w = .fail .diverge w'
  | 0, _, w, _ => ⟨w, rfl⟩
  | F + 1, st, w, h => by
    unfold printLoop
    rcases prepare_on hp G st w h with ⟨w', h1⟩ | ⟨id, st', w', h1, hf, h2⟩
    · exact ⟨w', by simp only [P.run_bind, h1]⟩
    · obtain ⟨w2, h3, h4⟩ := writeData_fine hp hf w'
      obtain ⟨w3, h5⟩ := printLoop_on hp G F st' w2 (by rw [h4]; exact h2)
      exact ⟨w3, by simp only [P.run_bind, h1, h3, h5]⟩

/-! ### The other case -/

theorem prepare_off (hp : Total put) : ∀ (N : Nat) (st : Dft.St) (w : Writer S), ¬ Goes (cstep (evStep disp f) opens?) N (st, w.indents.length) →
    (∃ r : Out (Writer S) (Option Nat × Dft.St), ((∃ st' w', r = .ok (none, st') w') ∨ Stops r) ∧ ∀ G, N ≤ G → prepareNext put f.hier G st w = r) ∨
    ∃ id st' w' N', N' < N ∧ (∀ G, N ≤ G → prepareNext put f.hier G st w = .ok (some id, st') w') ∧
      (fineAt disp f id = true → ¬ Goes (cstep (evStep disp f) opens?) N' (st', w'.indents.length))
  | 0, _, _, h => (h trivial).elim
  | N + 1, st, w, h => by
    have step1 : ∀ {G : Nat}, N + 1 ≤ G → ∃ G', G = G' + 1 ∧ N ≤ G' := fun {G} hG => ⟨G - 1, by omega, by omega⟩
    cases hn : Dft.next f.hier st with
    | error e =>
      refine .inl ⟨.fail e w, .inr ?_, fun G hG => ?_⟩
      · cases e with
        | panic m => exact .inr ⟨m, w, rfl⟩
        | diverge =>
          exfalso
          exact Halts.deNext (fun e => Halts.dftFwd e) st hn
      · obtain ⟨G, rfl, -⟩ := step1 hG
        unfold prepareNext
        simp only [hn, P.run_bind, P.run_ofR_error]
    | ok q =>
      obtain ⟨o, st'⟩ := q
      cases o with
      | none =>
        refine .inl ⟨.ok (none, st') w, .inl ⟨st', w, rfl⟩, fun G hG => ?_⟩
        obtain ⟨G, rfl, -⟩ := step1 hG
        unfold prepareNext
        simp only [hn, P.run_bind, P.run_ofR_ok, P.run_pure]
      | some e =>
        obtain ⟨b, hst, -⟩ := dft_event hn
        cases e with
        | cls id =>
          have he : evStep disp f st = some st' := by unfold evStep; rw [hn]
          cases hl : w.indents.getLast? with
          | none =>
            refine .inl ⟨.ok (none, st') w, .inl ⟨st', w, rfl⟩, fun G hG => ?_⟩
            obtain ⟨G, rfl, -⟩ := step1 hG
            have hcl : closeItem w = .ok false w := by
              unfold closeItem
              simp only [P.run_bind, P.run_indents, hl, P.run_pure]
            unfold prepareNext
            simp only [hn, P.run_bind, P.run_ofR_ok, hcl, P.run_pure, Bool.false_eq_true, if_false]
          | some i =>
            have hcl : closeItem w = .ok true { w with indents := w.indents.dropLast } := by
              unfold closeItem
              simp only [P.run_bind, P.run_indents, hl]
              rfl
            have hne : w.indents.length ≠ 0 := by
              intro h0
              rw [List.length_eq_zero_iff.1 h0] at hl
              cases hl
            have hnot : ¬ Goes (cstep (evStep disp f) opens?) N (st', ({ w with indents := w.indents.dropLast } : Writer S).indents.length) := by
              intro hg
              refine h ⟨(st', w.indents.length - 1), ?_, by simpa using hg⟩
              subst hst
              simp [cstep, he, opens?, hne]
            have run : ∀ G, prepareNext put f.hier (G + 1) st w = prepareNext put f.hier G st' { w with indents := w.indents.dropLast } := by
              intro G
              rw [prepareNext]
              simp only [hn, P.run_bind, P.run_ofR_ok, hcl, if_true]
            rcases prepare_off hp N st' _ hnot with ⟨r, h1, h2⟩ | ⟨id', st2, w2, N', h1, h2, h3⟩
            · refine .inl ⟨r, h1, fun G hG => ?_⟩
              obtain ⟨G, rfl, hG'⟩ := step1 hG
              rw [run]; exact h2 G hG'
            · refine .inr ⟨id', st2, w2, N', by omega, fun G hG => ?_, h3⟩
              obtain ⟨G, rfl, hG'⟩ := step1 hG
              rw [run]; exact h2 G hG'
        | opn id =>
          cases hb : isLastSibling f.hier id with
          | error e =>
            refine .inl ⟨.fail e w, .inr ?_, fun G hG => ?_⟩
            · cases e with
              | panic m => exact .inr ⟨m, w, rfl⟩
              | diverge =>
                exfalso
                revert hb
                unfold isLastSibling travNbr Treena.expect Neighbors.nextSibling
                cases f.hier.neighbors id with
                | none => nofun
                | some nb =>
                  dsimp only
                  split
                  · rename_i he
                    intro e; cases e
                    split at he <;> cases he
                  · nofun
            · obtain ⟨G, rfl, -⟩ := step1 hG
              unfold prepareNext
              simp only [hn, P.run_bind, P.run_ofR_ok, hb, P.run_ofR_error]
          | ok b' =>
            obtain ⟨w', ho, hl⟩ := openItem_ok hp b' w
            refine .inr ⟨id, st', w', N, by omega, fun G hG => ?_, fun hf hg => ?_⟩
            · obtain ⟨G, rfl, -⟩ := step1 hG
              unfold prepareNext
              simp only [hn, P.run_bind, P.run_ofR_ok, hb, ho, P.run_pure]
            · refine h ⟨(st', w.indents.length + 1), ?_, by rw [← hl]; exact hg⟩
              have he : evStep disp f st = some st' := by
                unfold evStep; rw [hn]; dsimp only; rw [hb]; simp only [hf, if_true]
              subst hst
              simp [cstep, he, opens?]

theorem printLoop_off (hp : Total put) : ∀ (N : Nat) (st : Dft.St) (w : Writer S), ¬ Goes (cstep (evStep disp f) opens?) N (st, w.indents.length) →
    ∃ r : Out (Writer S) Dft.St, (∀ w', r ≠ .fail .diverge w') ∧ ∀ F G, N ≤ F → N ≤ G → printLoop put disp f G F st w = r := by
  intro N
  induction N using Nat.strong_induction_on with
  | _ N ih =>
    intro st w h
    have hpos : 0 < N := by
      rcases Nat.eq_zero_or_pos N with rfl | h0
      · exact (h trivial).elim
      · exact h0
    have step1 : ∀ {F : Nat}, N ≤ F → ∃ F', F = F' + 1 ∧ N ≤ F' + 1 := fun {F} hF => ⟨F - 1, by omega, by omega⟩
    rcases prepare_off hp N st w h with ⟨r, hr, h1⟩ | ⟨id, st', w', N', hN, h1, h2⟩
    · rcases hr with ⟨st', w', rfl⟩ | ⟨w', rfl⟩ | ⟨m, w', rfl⟩
      · refine ⟨.ok st' w', nofun, fun F G hF hG => ?_⟩
        obtain ⟨F, rfl, -⟩ := step1 hF
        unfold printLoop
        simp only [P.run_bind, h1 G hG, P.run_pure]
      · refine ⟨.err w', nofun, fun F G hF hG => ?_⟩
        obtain ⟨F, rfl, -⟩ := step1 hF
        unfold printLoop
        simp only [P.run_bind, h1 G hG]
      · refine ⟨.fail (.panic m) w', nofun, fun F G hF hG => ?_⟩
        obtain ⟨F, rfl, -⟩ := step1 hF
        unfold printLoop
        simp only [P.run_bind, h1 G hG]
    · cases hf : fineAt disp f id with
      | true =>
        obtain ⟨w2, h3, h4⟩ := writeData_fine hp hf w'
        obtain ⟨r, h5, h6⟩ := ih N' hN st' w2 (by rw [h4]; exact h2 hf)
        refine ⟨r, h5, fun F G hF hG => ?_⟩
        obtain ⟨F, rfl, hF'⟩ := step1 hF
        rw [← h6 F G (by omega) (by omega)]
        rw [printLoop]
        simp only [P.run_bind, h1 G hG, h3]
      | false =>
        rcases writeData_stops hp hf w' with ⟨w2, h3⟩ | ⟨m, w2, h3⟩
        · refine ⟨.err w2, nofun, fun F G hF hG => ?_⟩
          obtain ⟨F, rfl, -⟩ := step1 hF
          unfold printLoop
          simp only [P.run_bind, h1 G hG, h3]
        · refine ⟨.fail (.panic m) w2, nofun, fun F G hF hG => ?_⟩
          obtain ⟨F, rfl, -⟩ := step1 hF
          unfold printLoop
          simp only [P.run_bind, h1 G hG, h3]

/-- The loop of `debug_print` has enough fuel, if the sink does not fail: with more fuel the outcome is the same. -/
theorem printLoop_fuel (hp : Total put) (st : Dft.St) (w : Writer S) (hw : w.indents = []) (i j : Nat) :
    (PrintsOn disp f st 0 ∧ (∃ w', printLoop put disp f (fuel f.hier) (fuel f.hier) st w = .fail .diverge w') ∧
      ∃ w', printLoop put disp f (fuel f.hier + i) (fuel f.hier + j) st w = .fail .diverge w') ∨
    ((∀ w', printLoop put disp f (fuel f.hier) (fuel f.hier) st w ≠ .fail .diverge w') ∧
      printLoop put disp f (fuel f.hier + i) (fuel f.hier + j) st w = printLoop put disp f (fuel f.hier) (fuel f.hier) st w) := by
  have hl : w.indents.length = 0 := by rw [hw]; rfl
  by_cases hg : Goes (cstep (evStep disp f) opens?) (fuel f.hier) (st, 0)
  · have hon := prints_on hg
    exact .inl ⟨hon, printLoop_on hp _ _ st w (by rw [hl]; exact hon), printLoop_on hp _ _ st w (by rw [hl]; exact hon)⟩
  · obtain ⟨r, h1, h2⟩ := printLoop_off hp (fuel f.hier) st w (by rw [hl]; exact hg)
    refine .inr ⟨fun w' => ?_, ?_⟩
    · rw [h2 _ _ (Nat.le_refl _) (Nat.le_refl _)]; exact h1 w'
    · rw [h2 _ _ (by omega) (by omega), h2 _ _ (Nat.le_refl _) (Nat.le_refl _)]

end Treena
