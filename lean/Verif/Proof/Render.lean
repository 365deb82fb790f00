import Verif.Proof.Clone
import Verif.Proof.Dft
import Verif.Model.DebugPrint
import Verif.Spec.Render
/-! Debug printing. -/

set_option autoImplicit false

namespace Treena
namespace DebugPrint
open Render

variable {S T α β : Type} {put : S → Text → Except S S}

/-- From the given line state and indents, `m` writes the pieces `W`, returns `a` and leaves the given line
state and indents; it returns the error of the sink if the sink reports one. -/
def Emits (put : S → Text → Except S S) (m : P S α) (l : LineState) (ind : List IndentLevel)
    (W : List Text) (a : α) (l' : LineState) (ind' : List IndentLevel) : Prop :=
  ∀ σ, ((feed put σ W).2 = none → m ⟨σ, l, ind⟩ = .ok a ⟨(feed put σ W).1, l', ind'⟩) ∧
    ((feed put σ W).2 ≠ none → ∃ l'' ind'', m ⟨σ, l, ind⟩ = .err ⟨(feed put σ W).1, l'', ind''⟩)

namespace Emits

variable {l l1 l2 : LineState} {i i1 i2 : List IndentLevel}

theorem of_run {m : P S α} {a : α} (h : ∀ σ, m ⟨σ, l, i⟩ = .ok a ⟨σ, l1, i1⟩) :
    Emits put m l i [] a l1 i1 := fun σ => ⟨fun _ => h σ, fun h => absurd rfl h⟩

theorem pure (a : α) : Emits put (Pure.pure a) l i [] a l i := of_run fun _ => rfl

theorem bind {m : P S α} {k : α → P S β} {a : α} {b : β} {W W' : List Text}
    (h1 : Emits put m l i W a l1 i1) (h2 : Emits put (k a) l1 i1 W' b l2 i2) :
    Emits put (m >>= k) l i (W ++ W') b l2 i2 := by
  intro σ
  obtain ⟨ha, hb⟩ := h1 σ
  rw [feed_append]
  cases hf : feed put σ W with
  | mk σ' o =>
    rw [hf] at ha hb
    cases o with
    | some k =>
      obtain ⟨l'', i'', he⟩ := hb (by simp)
      refine ⟨fun h => by simp at h, fun _ => ⟨l'', i'', ?_⟩⟩
      simp only [P.run_bind, he]
    | none =>
      obtain ⟨hc, hd⟩ := h2 σ'
      have he := ha rfl
      simp only at he
      refine ⟨fun h => ?_, fun h => ?_⟩
      · simp only [P.run_bind, he]; exact hc (by simpa using h)
      · obtain ⟨l'', i'', hg⟩ := hd (by simpa using h)
        exact ⟨l'', i'', by simp only [P.run_bind, he]; exact hg⟩

theorem congr {m m' : P S α} {a : α} {W : List Text} (h : ∀ σ, m ⟨σ, l, i⟩ = m' ⟨σ, l, i⟩)
    (h1 : Emits put m l i W a l1 i1) : Emits put m' l i W a l1 i1 := by
  intro σ; rw [← h σ]; exact h1 σ

/-- A first step that writes nothing. -/
theorem step {m : P S α} {k : α → P S β} {a : α} {b : β} {W : List Text}
    (h : ∀ σ, m ⟨σ, l, i⟩ = .ok a ⟨σ, l1, i1⟩) (h2 : Emits put (k a) l1 i1 W b l2 i2) :
    Emits put (m >>= k) l i W b l2 i2 := bind (W := []) (of_run h) h2

/-- A last step that writes nothing. -/
theorem done {m : P S α} {k : α → P S β} {a : α} {b : β} {W : List Text}
    (h1 : Emits put m l i W a l1 i1) (h : ∀ σ, k a ⟨σ, l1, i1⟩ = .ok b ⟨σ, l2, i2⟩) :
    Emits put (m >>= k) l i W b l2 i2 := by
  have := bind h1 (of_run (put := put) h)
  rwa [List.append_nil] at this

end Emits

theorem emits_emit (t : Text) (l : LineState) (i : List IndentLevel) :
    Emits put (emit put t) l i [t] () l i := by
  intro σ
  simp only [feed, emit]
  cases h : put σ t with
  | ok σ' => simp
  | error σ' => simp

theorem emits_emitAll (l : LineState) (i : List IndentLevel) : ∀ is : List IndentLevel,
    Emits put (emitAll put is) l i (is.map IndentLevel.asStr) () l i
  | [] => .pure ()
  | j :: is => by
    unfold emitAll
    exact Emits.bind (W := [j.asStr]) (emits_emit _ l i) (emits_emitAll l i is)

theorem clearLast_append (pre : List IndentLevel) (j : IndentLevel) :
    clearLast (pre ++ [j]) = pre ++ [⟨j.isLastItem, false⟩] := by
  simp [clearLast]

theorem clearLast_nil : clearLast [] = [] := rfl

theorem length_clearLast (l : List IndentLevel) : (clearLast l).length = l.length := by
  rcases l.eq_nil_or_concat with rfl | ⟨pre, j, rfl⟩
  · rfl
  · rw [List.concat_eq_append, clearLast_append]; simp

theorem clearLast_clearLast (l : List IndentLevel) : clearLast (clearLast l) = clearLast l := by
  rcases l.eq_nil_or_concat with rfl | ⟨pre, j, rfl⟩
  · rfl
  · rw [List.concat_eq_append, clearLast_append, clearLast_append]

/-- Indentation of a line below the given ancestors. -/
def prefixOf (i : List IndentLevel) : Text := (i.map IndentLevel.asStr).flatten

/-- What `write_indent_partial` writes. -/
def partialOf (i : List IndentLevel) : List Text :=
  match (stripRev i.reverse).reverse.getLast? with
  | some j => ((stripRev i.reverse).reverse.dropLast).map IndentLevel.asStr ++ [j.leading]
  | none => []

theorem emits_partial (l : LineState) (i : List IndentLevel) :
    Emits put (writeIndentPartial put) l i (partialOf i) () l i := by
  unfold writeIndentPartial partialOf
  refine Emits.step (a := i) (fun σ => rfl) ?_
  cases (stripRev i.reverse).reverse.getLast? with
  | none => exact Emits.pure ()
  | some j => exact Emits.bind (emits_emitAll l i _) (emits_emit _ l i)

/-- What `complete_partial_indent` writes. -/
def completeOf (i : List IndentLevel) : List Text :=
  match i.getLast? with
  | some j => [j.trailingSpaces]
  | none => []

theorem emits_complete (i : List IndentLevel) :
    Emits put (completePartialIndent put) .partialIndent i (completeOf i) () .partialIndent i := by
  unfold completePartialIndent completeOf
  refine Emits.step (a := .partialIndent) (fun σ => rfl) ?_
  refine Emits.step (a := ()) (fun σ => rfl) ?_
  refine Emits.step (a := i) (fun σ => rfl) ?_
  cases i.getLast? with
  | none => exact Emits.pure ()
  | some j => exact emits_emit _ _ i

/-! ### One line -/

/-- The indentation before a line whose indents are `i` before and `i'` after looking for its newline. -/
def indentOf (l : LineState) (i i' : List IndentLevel) : List Text :=
  match l with
  | .beforeIndent => partialOf i ++ completeOf i'
  | .partialIndent => completeOf i'
  | .content => []

theorem lineEnd_pos {s : Text} (h : s ≠ []) : 0 < (lineEnd s).1 := by
  unfold lineEnd
  split
  · exact Nat.succ_pos _
  · exact List.length_pos_of_ne_nil h

theorem take_lineEnd_ne {s : Text} (h : s ≠ []) : s.take (lineEnd s).1 ≠ [] := by
  have := lineEnd_pos h
  intro e
  rw [List.take_eq_nil_iff] at e
  rcases e with e | e
  · omega
  · exact h e

theorem emits_startLine (l : LineState) (i : List IndentLevel) :
    Emits put (startLine put) l i (if l = .beforeIndent then partialOf i else []) ()
      (if l = .beforeIndent then .partialIndent else l) i := by
  unfold startLine
  refine Emits.step (a := l) (fun σ => rfl) ?_
  by_cases h : l = .beforeIndent
  · subst h
    simp only [if_true]
    exact Emits.done (emits_partial _ i) (fun σ => rfl)
  · simp only [if_neg h]
    refine Emits.of_run fun σ => ?_
    have : (l == LineState.beforeIndent) = false := by simpa using h
    simp [P.when, this]

theorem emits_writeContent {c : Text} (hc : c ≠ []) (nl : Bool) {l : LineState} (hl : l ≠ .beforeIndent)
    (i : List IndentLevel) :
    Emits put (writeContent put c nl) l i ((if l = .partialIndent then completeOf i else []) ++ [c]) ()
      (if nl then .beforeIndent else .content) i := by
  have hne : c.isEmpty = false := by simpa using hc
  unfold writeContent
  refine Emits.congr (m := do
    let l ← P.line
    P.when (l == .beforeIndent)
      (P.throw (.panic "[consistency] indent must be written since there are something to write"))
    P.when (l == .partialIndent) (completePartialIndent put)
    emit put c
    setLine (if nl then .beforeIndent else .content)) (fun σ => by simp [P.when, hne]) ?_
  refine Emits.step (a := l) (fun σ => rfl) ?_
  have h1 : (l == LineState.beforeIndent) = false := by simpa using hl
  refine Emits.step (a := ()) (l1 := l) (i1 := i) (fun σ => by simp [P.when, h1]) ?_
  refine Emits.bind (a := ()) (l1 := l) (i1 := i) ?_ (Emits.done (emits_emit c l i) fun σ => rfl)
  by_cases h : l = .partialIndent
  · subst h; exact emits_complete i
  · rw [if_neg h]
    have h2 : (l == LineState.partialIndent) = false := by simpa using h
    exact Emits.of_run fun σ => by simp [P.when, h2]

/-- One round of the loop of `write_str`. -/
theorem emits_round {n : Nat} {s : Text} (hs : s ≠ []) {l l1 : LineState} {i i1 : List IndentLevel}
    {W : List Text}
    (h : Emits put (writeStrLoop put n (s.drop (lineEnd s).1))
      (if (lineEnd s).2 then .beforeIndent else .content) (if (lineEnd s).2 then clearLast i else i) W () l1 i1) :
    Emits put (writeStrLoop put (n + 1) s) l i
      (indentOf l i (if (lineEnd s).2 then clearLast i else i) ++ [s.take (lineEnd s).1] ++ W) () l1 i1 := by
  cases s with
  | nil => exact absurd rfl hs
  | cons c cs =>
    unfold writeStrLoop
    have hw : indentOf l i (if (lineEnd (c :: cs)).2 then clearLast i else i) ++ [(c :: cs).take (lineEnd (c :: cs)).1] ++ W
        = (if l = .beforeIndent then partialOf i else []) ++
          (((if (if l = .beforeIndent then LineState.partialIndent else l) = .partialIndent then
            completeOf (if (lineEnd (c :: cs)).2 then clearLast i else i) else []) ++
            [(c :: cs).take (lineEnd (c :: cs)).1]) ++ W) := by
      cases l <;> simp [indentOf]
    rw [hw]
    refine Emits.bind (emits_startLine l i) ?_
    refine Emits.step (a := ()) (l1 := if l = .beforeIndent then .partialIndent else l)
      (i1 := if (lineEnd (c :: cs)).2 then clearLast i else i) (fun σ => ?_) ?_
    · cases (lineEnd (c :: cs)).2 <;> simp [P.when]
    · refine Emits.bind (emits_writeContent (take_lineEnd_ne (by simp)) _ ?_ _) h
      cases l <;> simp

/-! ### Text with indentation -/

/-- The text `s` with `p` before each of its lines that has a character, the first line being indented if
`b`. -/
def weave (p : Text) : Bool → Text → Text
  | _, [] => []
  | b, c :: cs => (if b then p else []) ++ c :: weave p (c == '\n') cs

/-- Whether the cursor is at the beginning of a line after `s`. -/
def endNl (b : Bool) (s : Text) : Bool :=
  match s.getLast? with
  | none => b
  | some c => c == '\n'

def lineOf (b : Bool) : LineState := if b then .beforeIndent else .content

theorem endNl_append (b : Bool) (s t : Text) : endNl b (s ++ t) = endNl (endNl b s) t := by
  unfold endNl
  rw [List.getLast?_append]
  cases t.getLast? <;> simp

theorem endNl_cons (b : Bool) (c : Char) (t : Text) : endNl b (c :: t) = endNl (c == '\n') t :=
  endNl_append b [c] t

theorem weave_append (p : Text) : ∀ (b : Bool) (s t : Text),
    weave p b (s ++ t) = weave p b s ++ weave p (endNl b s) t
  | b, [], t => by simp [weave, endNl]
  | b, c :: cs, t => by
    rw [List.cons_append, weave, weave, weave_append p _ cs t, endNl_cons]
    simp

theorem weave_line (p : Text) : ∀ (b : Bool) (s : Text), s ≠ [] → '\n' ∉ s →
    weave p b s = (if b then p else []) ++ s
  | b, [], h, _ => absurd rfl h
  | b, c :: cs, _, hn => by
    rw [List.mem_cons, not_or] at hn
    have hc : (c == '\n') = false := by simpa using fun e => hn.1 e.symm
    rw [weave, hc]
    cases cs with
    | nil => simp [weave]
    | cons d ds => rw [weave_line p false (d :: ds) (by simp) hn.2]; simp

theorem weave_nl (p : Text) (b : Bool) (a r : Text) (ha : '\n' ∉ a) :
    weave p b (a ++ '\n' :: r) = (if b then p else []) ++ (a ++ ['\n']) ++ weave p true r := by
  cases a with
  | nil => simp [weave]
  | cons c cs =>
    rw [weave_append, weave_line p b (c :: cs) (by simp) ha]
    have hc : endNl b (c :: cs) = false := by
      unfold endNl
      cases h : (c :: cs).getLast? with
      | none => simp at h
      | some d =>
        have : d ∈ c :: cs := List.mem_of_getLast? h
        simp only [beq_eq_false_iff_ne]
        rintro rfl; exact ha this
    rw [hc, weave]; simp

theorem weave_nil (b : Bool) : ∀ s : Text, weave [] b s = s
  | [] => rfl
  | c :: cs => by rw [weave, weave_nil _ cs]; simp

theorem lineEnd_nl {a r : Text} (ha : '\n' ∉ a) :
    lineEnd (a ++ '\n' :: r) = (a.length + 1, true) := by
  have : (a ++ '\n' :: r).findIdx (· == '\n') = a.length := by
    rw [List.findIdx_append]
    have h1 : a.findIdx (· == '\n') = a.length := by
      rw [List.findIdx_eq_length]
      intro x hx
      simp only [beq_eq_false_iff_ne]
      rintro rfl; exact ha hx
    simp [h1, List.findIdx_cons]
  unfold lineEnd
  rw [this]
  simp

theorem lineEnd_line {s : Text} (hs : '\n' ∉ s) : lineEnd s = (s.length, false) := by
  have h1 : s.findIdx (· == '\n') = s.length := by
    rw [List.findIdx_eq_length]
    intro x hx
    simp only [beq_eq_false_iff_ne]
    rintro rfl; exact hs hx
  unfold lineEnd
  rw [h1]; simp

theorem split_nl {s : Text} (h : '\n' ∈ s) : ∃ a r, s = a ++ '\n' :: r ∧ '\n' ∉ a := by
  induction s with
  | nil => simp at h
  | cons c cs ih =>
    by_cases hc : c = '\n'
    · subst hc; exact ⟨[], cs, rfl, by simp⟩
    · obtain ⟨a, r, rfl, ha⟩ := ih (by simpa [Ne.symm hc, eq_comm, hc] using h)
      exact ⟨c :: a, r, rfl, by simp [ha, Ne.symm hc]⟩

theorem emits_writeStrLoop {p : Text} : ∀ (n : Nat) (s : Text) (b : Bool) (i : List IndentLevel),
    s.length ≤ n → (b = true → clearLast i = i) →
    ((b = true ∨ '\n' ∈ s) → (partialOf (clearLast i) ++ completeOf (clearLast i)).flatten = p) →
    ∃ W, W.flatten = weave p b s ∧
      Emits put (writeStrLoop put n s) (lineOf b) i W () (lineOf (endNl b s))
        (if '\n' ∈ s then clearLast i else i)
  | n, [], b, i, _, _, _ => ⟨[], rfl, by
      have : Emits put (writeStrLoop put n []) (lineOf b) i [] () (lineOf b) i := by
        cases n <;> exact Emits.pure ()
      simpa [endNl] using this⟩
  | 0, c :: cs, _, _, h, _, _ => by simp at h
  | n + 1, c :: cs, b, i, h, hb, hp => by
    by_cases hn : '\n' ∈ c :: cs
    · obtain ⟨a, r, hs, ha⟩ := split_nl hn
      have hle := lineEnd_nl (r := r) ha
      have hlen : r.length ≤ n := by
        have := congrArg List.length hs
        simp at this h; omega
      have hp' := hp (.inr hn)
      obtain ⟨W, hW, hE⟩ := emits_writeStrLoop (p := p) n r true (clearLast i) hlen
        (fun _ => clearLast_clearLast i) (fun _ => by rw [clearLast_clearLast]; exact hp')
      have hE' : Emits put (writeStrLoop put n r) (lineOf true) (clearLast i) W () (lineOf (endNl true r))
          (clearLast i) := by
        by_cases hr : '\n' ∈ r
        · simpa [hr, clearLast_clearLast] using hE
        · simpa [hr] using hE
      rw [if_pos hn]
      rw [hs] at hp ⊢
      have htake : (a ++ '\n' :: r).take (a.length + 1) = a ++ ['\n'] := by
        rw [show a ++ '\n' :: r = (a ++ ['\n']) ++ r by simp, List.take_left' (by simp)]
      have hdrop : (a ++ '\n' :: r).drop (a.length + 1) = r := by
        rw [show a ++ '\n' :: r = (a ++ ['\n']) ++ r by simp, List.drop_left' (by simp)]
      have hend : endNl b (a ++ '\n' :: r) = endNl true r := by
        rw [endNl_append, endNl_cons]; rfl
      refine ⟨indentOf (lineOf b) i (clearLast i) ++ [a ++ ['\n']] ++ W, ?_, ?_⟩
      · rw [weave_nl p b a r ha, List.flatten_append, List.flatten_append, hW]
        cases b with
        | false => simp [lineOf, indentOf]
        | true =>
          have e := hb rfl
          simp only [lineOf, indentOf, if_true]
          rw [← hp', e]; simp
      · have := emits_round (put := put) (n := n) (s := a ++ '\n' :: r) (by simp) (l := lineOf b) (i := i)
          (W := W) (l1 := lineOf (endNl true r)) (i1 := clearLast i) (by
            rw [hle]; simp only [if_true, hdrop]; exact hE')
        rw [hle] at this
        simp only [if_true, htake] at this
        rw [hend]; exact this
    · have hle := lineEnd_line hn
      rw [if_neg hn]
      refine ⟨indentOf (lineOf b) i i ++ [c :: cs], ?_, ?_⟩
      · rw [weave_line p b (c :: cs) (by simp) hn, List.flatten_append]
        cases b with
        | false => simp [lineOf, indentOf]
        | true =>
          have e := hb rfl
          have hp' := hp (.inl rfl)
          rw [e] at hp'
          simp only [lineOf, indentOf, if_true]
          rw [← hp']; simp
      · have hend : endNl b (c :: cs) = false := by
          unfold endNl
          cases h : (c :: cs).getLast? with
          | none => simp at h
          | some d =>
            have : d ∈ c :: cs := List.mem_of_getLast? h
            simp only [beq_eq_false_iff_ne]
            rintro rfl; exact hn this
        have := emits_round (put := put) (n := n) (s := c :: cs) (by simp) (l := lineOf b) (i := i)
          (W := []) (l1 := .content) (i1 := i) (by
            rw [hle]
            simp only [List.drop_length, Bool.false_eq_true, if_false]
            cases n <;> exact Emits.pure ())
        rw [hle] at this
        simp only [Bool.false_eq_true, if_false, List.take_length, List.append_nil] at this
        rw [hend]; exact this

/-- The pieces, written one after the other. -/
def writeChunks (put : S → Text → Except S S) : List Text → P S Unit
  | [] => pure ()
  | c :: cs => do
    writeStr put c
    writeChunks put cs

theorem runFmt_ofPieces : ∀ cs : List Text, runFmt put (.ofPieces true cs) = writeChunks put cs
  | [] => rfl
  | c :: cs => by
    funext w
    simp only [Fmt.ofPieces, runFmt, writeChunks, P.run_bind, if_true, Bool.false_eq_true, if_false]
    rw [runFmt_ofPieces cs]
    cases writeStr put c w <;> rfl

theorem emits_writeChunks {p : Text} : ∀ (cs : List Text) (b : Bool) (i : List IndentLevel),
    (b = true → clearLast i = i) →
    ((b = true ∨ '\n' ∈ cs.flatten) → (partialOf (clearLast i) ++ completeOf (clearLast i)).flatten = p) →
    ∃ W, W.flatten = weave p b cs.flatten ∧
      Emits put (writeChunks put cs) (lineOf b) i W () (lineOf (endNl b cs.flatten))
        (if '\n' ∈ cs.flatten then clearLast i else i)
  | [], b, i, _, _ => ⟨[], by simp [weave], by
      have : Emits put (writeChunks put []) (lineOf b) i [] () (lineOf b) i := Emits.pure ()
      simpa [endNl] using this⟩
  | c :: cs, b, i, hb, hp => by
    obtain ⟨W1, h1, e1⟩ := emits_writeStrLoop (put := put) (p := p) c.length c b i (Nat.le_refl _) hb
      (fun h => hp (h.imp id (fun h => by simp [h])))
    have hcl : clearLast (if '\n' ∈ c then clearLast i else i) = clearLast i := by
      split
      · exact clearLast_clearLast i
      · rfl
    have hb' : endNl b c = true → clearLast (if '\n' ∈ c then clearLast i else i)
        = if '\n' ∈ c then clearLast i else i := by
      intro h
      rw [hcl]
      split
      · rfl
      · rename_i hn
        unfold endNl at h
        cases hl : c.getLast? with
        | none => rw [hl] at h; exact hb h
        | some d =>
          rw [hl] at h
          have : d ∈ c := List.mem_of_getLast? hl
          simp only [beq_iff_eq] at h
          subst h; exact absurd this hn
    obtain ⟨W2, h2, e2⟩ := emits_writeChunks (p := p) cs (endNl b c) _ hb' (by
      intro h
      rw [hcl]
      apply hp
      rcases h with h | h
      · unfold endNl at h
        cases hl : c.getLast? with
        | none => rw [hl] at h; exact .inl h
        | some d =>
          rw [hl] at h
          have : d ∈ c := List.mem_of_getLast? hl
          simp only [beq_iff_eq] at h
          subst h; exact .inr (by simp [this])
      · exact .inr (by rw [List.flatten_cons]; exact List.mem_append_right _ h))
    refine ⟨W1 ++ W2, ?_, ?_⟩
    · rw [List.flatten_append, h1, h2, List.flatten_cons, weave_append]
    · unfold writeChunks writeStr
      rw [List.flatten_cons, endNl_append]
      refine Emits.bind e1 ?_
      have hi : (if '\n' ∈ cs.flatten then clearLast (if '\n' ∈ c then clearLast i else i)
          else if '\n' ∈ c then clearLast i else i) = if '\n' ∈ c ++ cs.flatten then clearLast i else i := by
        rw [hcl]
        by_cases h1 : '\n' ∈ cs.flatten <;> by_cases h2 : '\n' ∈ c <;> simp_all
      rw [← hi]; exact e2

/-! ### The picture -/

theorem splitLines_ne (s : Text) : splitLines s ≠ [] := by
  cases s with
  | nil => simp [splitLines]
  | cons c cs =>
    unfold splitLines
    split
    · simp
    · split <;> simp

theorem joinLines_cons (l : Text) : ∀ ls : List Text, joinLines (l :: ls) = l ++ ls.flatMap (fun x => '\n' :: x)
  | [] => by simp [joinLines]
  | l' :: ls => by rw [joinLines, joinLines_cons l' ls]; simp

theorem joinLines_splitLines (s : Text) : joinLines (splitLines s) = s := by
  induction s with
  | nil => rfl
  | cons c cs ih =>
    unfold splitLines
    split
    · rename_i h
      subst h
      obtain ⟨l, ls, h⟩ := List.exists_cons_of_ne_nil (splitLines_ne cs)
      rw [h] at ih ⊢
      rw [joinLines, ih]; rfl
    · split
      · rename_i h; exact absurd h (splitLines_ne cs)
      · rename_i l ls h
        rw [h, joinLines_cons] at ih
        rw [joinLines_cons, List.cons_append, ih]

theorem weave_true {p s : Text} (h : s ≠ []) : weave p true s = p ++ weave p false s := by
  cases s with
  | nil => exact absurd rfl h
  | cons c cs => simp [weave]

theorem weave_joinLines (p : Text) : ∀ (s F : Text), endNl false s = false →
    F ++ weave p false s = joinLines (indent F p (splitLines s))
  | [], F, _ => by simp [weave, splitLines, indent, joinLines]
  | c :: cs, F, h => by
    rw [endNl_cons] at h
    obtain ⟨l, ls, hl⟩ := List.exists_cons_of_ne_nil (splitLines_ne cs)
    by_cases hc : c = '\n'
    · subst hc
      simp only [beq_self_eq_true] at h
      have hne : cs ≠ [] := by rintro rfl; simp [endNl] at h
      have h' : endNl false cs = false := by
        unfold endNl at h ⊢
        cases hg : cs.getLast? with
        | none => rfl
        | some d => rw [hg] at h; exact h
      have ih := weave_joinLines p cs p h'
      rw [hl] at ih
      have : splitLines ('\n' :: cs) = [] :: l :: ls := by rw [splitLines, hl]; rfl
      rw [this, weave, beq_self_eq_true, weave_true hne, ih]
      simp [indent, joinLines]
    · have hb : (c == '\n') = false := by simpa using hc
      rw [hb] at h
      have ih := weave_joinLines p cs (F ++ [c]) h
      have : splitLines (c :: cs) = (c :: l) :: ls := by rw [splitLines, if_neg hc, hl]
      rw [this, weave, hb]
      rw [hl] at ih
      simp only [indent, List.append_assoc, List.singleton_append] at ih ⊢
      simpa using ih

/-! ### One node -/

theorem prefixOf_append (a b : List IndentLevel) : prefixOf (a ++ b) = prefixOf a ++ prefixOf b := by
  simp [prefixOf]

theorem indent_first (pre : List IndentLevel) (last : Bool) :
    (partialOf (pre ++ [⟨last, true⟩]) ++ completeOf (pre ++ [⟨last, true⟩])).flatten
      = prefixOf (pre ++ [⟨last, true⟩]) := by
  cases last <;>
    simp [partialOf, completeOf, stripRev, IndentLevel.isAllWhitespace, prefixOf, IndentLevel.leading,
      IndentLevel.trailingSpaces, IndentLevel.asStr]

theorem indent_rest (pre : List IndentLevel) (last : Bool) (h : last = false ∨ pre = []) :
    (partialOf (pre ++ [⟨last, false⟩]) ++ completeOf (pre ++ [⟨last, false⟩])).flatten
      = prefixOf (pre ++ [⟨last, false⟩]) := by
  rcases h with rfl | rfl
  · simp [partialOf, completeOf, stripRev, IndentLevel.isAllWhitespace, prefixOf, IndentLevel.leading,
      IndentLevel.trailingSpaces, IndentLevel.asStr]
  · cases last <;>
      simp [partialOf, completeOf, stripRev, IndentLevel.isAllWhitespace, prefixOf, IndentLevel.leading,
        IndentLevel.trailingSpaces, IndentLevel.asStr]

theorem emits_first (pre : List IndentLevel) (last : Bool) : ∀ (cs cs' : List Text) (c : Text),
    cs.filter (fun c => !c.isEmpty) = c :: cs' → '\n' ∉ c →
    ('\n' ∉ cs.flatten ∨ last = false ∨ pre = []) →
    ∃ W i', W.flatten = prefixOf (pre ++ [⟨last, true⟩]) ++
        weave (prefixOf (pre ++ [⟨last, false⟩])) false cs.flatten ∧
      Emits put (writeChunks put cs) .beforeIndent (pre ++ [⟨last, true⟩]) W ()
        (lineOf (endNl false cs.flatten)) i' ∧ clearLast i' = pre ++ [⟨last, false⟩]
  | [], _, _, h, _, _ => by simp at h
  | [] :: cs, cs', c, h, hc, hn => by
    obtain ⟨W, i', h1, h2, h3⟩ := emits_first pre last cs cs' c (by simpa using h) hc (by simpa using hn)
    refine ⟨W, i', by simpa using h1, ?_, h3⟩
    unfold writeChunks
    refine Emits.step (a := ()) (fun σ => rfl) ?_
    simpa using h2
  | (x :: xs) :: cs, cs', c, h, hc, hn => by
    have hx : x :: xs = c := by simpa using congrArg List.head? h
    subst hx
    have hle := lineEnd_line hc
    have h1 : Emits put (writeStr put (x :: xs)) .beforeIndent (pre ++ [⟨last, true⟩])
        (partialOf (pre ++ [⟨last, true⟩]) ++ completeOf (pre ++ [⟨last, true⟩]) ++ [x :: xs]) ()
        .content (pre ++ [⟨last, true⟩]) := by
      have := emits_round (put := put) (n := xs.length) (s := x :: xs) (by simp) (l := .beforeIndent)
        (i := pre ++ [⟨last, true⟩]) (W := []) (l1 := .content) (i1 := pre ++ [⟨last, true⟩]) (by
          rw [hle]
          simp only [List.drop_length, Bool.false_eq_true, if_false]
          cases xs.length <;> exact Emits.pure ())
      rw [hle] at this
      simp only [Bool.false_eq_true, if_false, List.take_length, List.append_nil] at this
      exact this
    obtain ⟨W, hW, hE⟩ := emits_writeChunks (put := put) (p := prefixOf (pre ++ [⟨last, false⟩])) cs false
      (pre ++ [⟨last, true⟩]) (by simp) (by
        intro hh
        rw [clearLast_append]
        refine indent_rest pre last ?_
        rcases hn with hn | hn
        · exfalso
          rcases hh with hh | hh
          · simp at hh
          · exact hn (by rw [List.flatten_cons]; exact List.mem_append_right _ hh)
        · exact hn)
    have hend : endNl false (x :: xs) = false := by
      unfold endNl
      cases h : (x :: xs).getLast? with
      | none => simp at h
      | some d =>
        have : d ∈ x :: xs := List.mem_of_getLast? h
        simp only [beq_eq_false_iff_ne]
        rintro rfl; exact hc this
    refine ⟨_, _, ?_, (by
      unfold writeChunks
      rw [List.flatten_cons, endNl_append, hend]
      exact Emits.bind h1 hE), ?_⟩
    · rw [List.flatten_append, hW, List.flatten_append, indent_first,
        show ((x :: xs) :: cs).flatten = (x :: xs) ++ cs.flatten from rfl, weave_append, hend,
        weave_line _ false (x :: xs) (by simp) hc]
      simp
    · split
      · rw [clearLast_clearLast, clearLast_append]
      · rw [clearLast_append]

theorem filled_endNl {s : Text} (h : Filled s) : endNl false s = false := by
  obtain ⟨c, hc, hn⟩ := h
  unfold endNl; rw [hc]; simpa using hn

theorem OneLine.filled {s : Text} (h : OneLine s) : Filled s := by
  cases hl : s.getLast? with
  | none => simp at hl; exact absurd hl h.1
  | some c => exact ⟨c, hl, fun e => h.2 (e ▸ List.mem_of_getLast? hl)⟩

theorem emits_node {pre : List IndentLevel} {last : Bool} {cs : List Text}
    (h : OkText (pre.length + 1) last cs) :
    ∃ W i', W.flatten = joinLines (indent (prefixOf (pre ++ [⟨last, true⟩])) (prefixOf (pre ++ [⟨last, false⟩]))
        (splitLines cs.flatten)) ∧
      Emits put (writeChunks put cs) .beforeIndent (pre ++ [⟨last, true⟩]) W () .content i' ∧
      clearLast i' = pre ++ [⟨last, false⟩] := by
  have hf : Filled cs.flatten := h.elim OneLine.filled (fun h => h.1)
  have : ∃ c cs', cs.filter (fun c => !c.isEmpty) = c :: cs' ∧ '\n' ∉ c := by
    rcases h with h | h
    · cases hc : cs.filter (fun c => !c.isEmpty) with
      | nil =>
        exfalso
        apply h.1
        rw [List.flatten_eq_nil_iff]
        intro c hcm
        rw [List.filter_eq_nil_iff] at hc
        have := hc c hcm
        simpa using this
      | cons c cs' =>
        refine ⟨c, cs', rfl, fun hm => h.2 ?_⟩
        have : c ∈ cs := (List.mem_filter.1 (hc ▸ List.mem_cons_self)).1
        exact List.mem_flatten.2 ⟨c, this, hm⟩
    · exact h.2.1
  obtain ⟨c, cs', h1, h2⟩ := this
  obtain ⟨W, i', hW, hE, hi⟩ := emits_first (put := put) pre last cs cs' c h1 h2 (by
    rcases h with h | h
    · exact .inl h.2
    · refine .inr (h.2.2.imp id fun e => ?_)
      exact List.eq_nil_of_length_eq_zero (by omega))
  rw [filled_endNl hf] at hE
  exact ⟨W, i', by rw [hW, weave_joinLines _ _ _ (filled_endNl hf)], hE, hi⟩

/-! ### The loop over the events -/

/-- The loop, driven by the list of events still to come. -/
def flat (put : S → Text → Except S S) (disp : T → Fmt) (f : Forest T) (lastOf : Nat → Bool) :
    List (Ev Nat) → P S (List (Ev Nat))
  | [] => pure []
  | .cls _ :: L => do
    let ok ← closeItem
    if ok then flat put disp f lastOf L else pure L
  | .opn y :: L => do
    openItem put (lastOf y)
    writeData put disp f y
    flat put disp f lastOf L

/-- The search for the next node, driven by the list of events still to come. -/
def prep (put : S → Text → Except S S) (lastOf : Nat → Bool) :
    List (Ev Nat) → P S (Option Nat × List (Ev Nat))
  | [] => pure (none, [])
  | .cls _ :: L => do
    let ok ← closeItem
    if ok then prep put lastOf L else pure (none, L)
  | .opn y :: L => do
    openItem put (lastOf y)
    pure (some y, L)

theorem bind_congr {m m' : P S α} {k k' : α → P S β} (h : m = m') (hk : ∀ a, k a = k' a) :
    (m >>= k) = (m' >>= k') := by
  subst h; rw [funext hk]

theorem bind_assoc {γ : Type} (m : P S α) (k : α → P S β) (k' : β → P S γ) :
    ((m >>= k) >>= k') = (m >>= fun a => k a >>= k') := by
  funext w
  simp only [P.run_bind]
  cases m w <;> rfl

theorem pure_bind (a : α) (k : α → P S β) : ((Pure.pure a : P S α) >>= k) = k a := rfl

theorem ofR_bind (a : α) (k : α → P S β) : ((P.ofR (.ok a) : P S α) >>= k) = k a := rfl

variable {f : Forest T} {s : Shape} {disp : T → Fmt}

/-- The flag `is_last_sibling`. -/
def lastFlag (s : Shape) (y : Nat) : Bool := (s.next y).isNone

theorem isLastSibling_ok (hm : Models f s) {y : Nat} (hy : s.alive y = true) :
    isLastSibling f.hier y = .ok (lastFlag s y) := by
  unfold isLastSibling
  rw [travNbr_alive hm.agrees hm.valid hy]
  simp only [hm.agrees.nextSibling_get hm.valid hy]
  rfl

theorem prepareNext_prep (hm : Models f s) : ∀ (L : List (Ev Nat)) (n : Nat),
    Walk f Ev.node (Dft.stepFwd f.hier) (Dft.stepBack f.hier) L → L.length < n →
    prepareNext put f.hier n (ends L) =
      (prep put (lastFlag s) L >>= fun r => pure (r.1, ends r.2))
  | L, 0, _, h => by omega
  | [], n + 1, w, _ => by
    have : Dft.next f.hier (ends []) = .ok (none, ends []) := w.deNext
    rw [prepareNext, this, ofR_bind]; rfl
  | .cls y :: L, n + 1, w, h => by
    have : Dft.next f.hier (ends (.cls y :: L)) = .ok (some (.cls y), ends L) := w.deNext
    rw [prepareNext, this, ofR_bind, prep, bind_assoc]
    refine bind_congr rfl fun ok => ?_
    cases ok with
    | false => rfl
    | true => exact prepareNext_prep hm L n w.tail (by simpa using h)
  | .opn y :: L, n + 1, w, _ => by
    have : Dft.next f.hier (ends (.opn y :: L)) = .ok (some (.opn y), ends L) := w.deNext
    have hy : s.alive y = true := by rw [← hm.isAlive]; exact w.alive (.opn y) (by simp)
    rw [prepareNext, this, ofR_bind, prep, bind_assoc]
    simp only [isLastSibling_ok hm hy, ofR_bind]
    rfl

theorem flat_prep (lastOf : Nat → Bool) : ∀ L : List (Ev Nat),
    flat put disp f lastOf L = (prep put lastOf L >>= fun r => match r.1 with
      | none => pure r.2
      | some y => writeData put disp f y >>= fun _ => flat put disp f lastOf r.2)
  | [] => rfl
  | .cls y :: L => by
    rw [flat, prep, bind_assoc]
    refine bind_congr rfl fun ok => ?_
    cases ok with
    | false => rfl
    | true => exact flat_prep lastOf L
  | .opn y :: L => by
    rw [flat, prep, bind_assoc]
    rfl

theorem prep_suffix (lastOf : Nat → Bool) : ∀ (L : List (Ev Nat)) (w : Writer S) (o : Option Nat)
    (L' : List (Ev Nat)) (w' : Writer S),
    prep put lastOf L w = .ok (o, L') w' → L' <:+ L ∧ (o.isSome = true → L'.length < L.length)
  | [], w, o, L', w', h => by
    simp only [prep, P.run_pure, Out.ok.injEq, Prod.mk.injEq] at h
    obtain ⟨⟨rfl, rfl⟩, rfl⟩ := h
    simp
  | .cls y :: L, w, o, L', w', h => by
    simp only [prep, P.run_bind] at h
    cases hc : (closeItem w : Out (Writer S) Bool) with
    | err _ => rw [hc] at h; simp at h
    | fail _ _ => rw [hc] at h; simp at h
    | ok b w1 =>
      rw [hc] at h
      cases b with
      | false =>
        simp only [Bool.false_eq_true, if_false, P.run_pure, Out.ok.injEq, Prod.mk.injEq] at h
        obtain ⟨⟨rfl, rfl⟩, rfl⟩ := h
        simp
      | true =>
        simp only [if_true] at h
        have := prep_suffix lastOf L w1 o L' w' h
        exact ⟨this.1.trans (List.suffix_cons _ _), fun ho => by have := this.2 ho; simp; omega⟩
  | .opn y :: L, w, o, L', w', h => by
    simp only [prep, P.run_bind] at h
    cases hc : openItem put (lastOf y) w with
    | err _ => rw [hc] at h; simp at h
    | fail _ _ => rw [hc] at h; simp at h
    | ok b w1 =>
      rw [hc] at h
      simp only [P.run_pure, Out.ok.injEq, Prod.mk.injEq] at h
      obtain ⟨⟨rfl, rfl⟩, rfl⟩ := h
      simp

theorem Walk.suffix {ι : Type} {idOf : ι → Nat} {stepF stepB : ι → R (Option ι)} {L : List ι} :
    ∀ {L' : List ι}, Walk f idOf stepF stepB L → L' <:+ L → Walk f idOf stepF stepB L' := by
  intro L' w h
  obtain ⟨pre, rfl⟩ := h
  induction pre with
  | nil => exact w
  | cons a pre ih => exact ih w.tail

theorem printLoop_flat (hm : Models f s) (fl : Nat) : ∀ (n : Nat) (L : List (Ev Nat)),
    Walk f Ev.node (Dft.stepFwd f.hier) (Dft.stepBack f.hier) L → L.length < n → L.length < fl →
    printLoop put disp f fl n (ends L) =
      (flat put disp f (lastFlag s) L >>= fun L' => pure (ends L'))
  | 0, L, _, h, _ => by omega
  | n + 1, L, w, hn, hfl => by
    rw [printLoop, prepareNext_prep hm L fl w hfl, flat_prep, bind_assoc, bind_assoc]
    funext wr
    simp only [P.run_bind]
    cases hp : prep put (lastFlag s) L wr with
    | err _ => rfl
    | fail _ _ => rfl
    | ok r w1 =>
      obtain ⟨o, L'⟩ := r
      obtain ⟨hs, hl⟩ := prep_suffix (lastFlag s) L wr o L' w1 hp
      cases o with
      | none => rfl
      | some y =>
        have hl := hl rfl
        simp only [P.run_pure, P.run_bind]
        cases writeData put disp f y w1 with
        | err _ => rfl
        | fail _ _ => rfl
        | ok _ w2 =>
          simp only
          rw [printLoop_flat hm fl n L' (Walk.suffix w hs) (by omega) (by omega)]
          simp only [P.run_bind]
          cases flat put disp f (lastFlag s) L' w2 <;> rfl

theorem emits_openItem (last : Bool) (i : List IndentLevel) :
    Emits put (openItem put last) .content i [['\n']] () .beforeIndent (clearLast i ++ [⟨last, true⟩]) := by
  unfold openItem
  refine Emits.step (a := .content) (fun σ => rfl) ?_
  refine Emits.done (l1 := .beforeIndent) (i1 := i) (a := ()) ?_ (fun σ => rfl)
  exact Emits.done (emits_emit _ _ _) (fun σ => rfl)

/-- The data of the node is written in the pieces `cs`. -/
def Shown (disp : T → Fmt) (f : Forest T) (y : Nat) (cs : List Text) : Prop :=
  ∃ d, f.getData y = some d ∧ disp d = .ofPieces true cs

theorem writeData_eq {y : Nat} {cs : List Text} (h : Shown disp f y cs) :
    writeData put disp f y = writeChunks put cs := by
  obtain ⟨d, h1, h2⟩ := h
  unfold writeData
  rw [h1, expect_some, ofR_bind, h2, runFmt_ofPieces]

theorem indent_flatMap (P F p : Text) (ls : List Text) :
    (indent F p ls).flatMap (fun l => '\n' :: P ++ l) =
      if ls = [] then [] else '\n' :: joinLines (indent (P ++ F) (P ++ p) ls) := by
  cases ls with
  | nil => simp [indent]
  | cons l ls => simp [indent, joinLines_cons, List.flatMap_map]

/-- The two indentations of a child. -/
def mark (last first : Bool) : Text := IndentLevel.asStr ⟨last, first⟩

mutual
theorem flat_tree (hv : s.Valid) (lab : Nat → List Text) : ∀ (t : Tree Nat) (i : List IndentLevel)
    (last : Bool), Tree.IsTree s.kids t → (∀ y ∈ t.preorder, Shown disp f y (lab y)) →
    lastFlag s t.root = last → Ok (i.length + 1) last (t.map lab) →
    ∃ W, W.flatten = (indent (mark last true) (mark last false)
        (lines ((t.map lab).map List.flatten))).flatMap (fun l => '\n' :: prefixOf (clearLast i) ++ l) ∧
      ∀ (R : List (Ev Nat)) (W' : List Text) (r : List (Ev Nat)) (l2 : LineState) (i2 : List IndentLevel),
        Emits put (flat put disp f (lastFlag s) R) .content (clearLast i) W' r l2 i2 →
        Emits put (flat put disp f (lastFlag s) (t.events ++ R)) .content i (W ++ W') r l2 i2
  | .node x ts, i, last, ⟨h1, h2⟩, hd, hlast, hok => by
    simp only [Tree.root] at hlast
    simp only [Tree.map, Ok] at hok
    obtain ⟨W1, i1, hW1, hE1, hi1⟩ := emits_node (put := put) (pre := clearLast i) (last := last) (cs := lab x)
      (by rw [length_clearLast]; exact hok.1)
    have hlen : i1.length = i.length + 1 := by
      rw [← length_clearLast, hi1]; simp [length_clearLast]
    obtain ⟨W2, hW2, hE2⟩ := flat_forest hv lab ts i1 x [] (by simpa using h1) h2
      (fun y hy => hd y (by simp [Tree.preorder, hy])) (by rw [hlen]; exact hok.2)
    refine ⟨['\n'] :: W1 ++ W2, ?_, ?_⟩
    · rw [List.cons_append, List.flatten_cons, List.flatten_append, hW1, hW2, hi1]
      simp only [Tree.map, lines]
      obtain ⟨l, ls, hl⟩ := List.exists_cons_of_ne_nil (splitLines_ne (lab x).flatten)
      rw [hl, indent_flatMap, if_neg (by simp)]
      simp only [indent, joinLines_cons, List.flatten_append, List.map_append, List.flatMap_append, List.flatMap_map, mark, prefixOf,
        List.map_cons, List.map_nil, List.flatten_cons, List.flatten_nil, List.append_nil, List.append_assoc,
        List.cons_append, List.nil_append]
    · intro R W' r l2 i2 hR
      have hev : (Tree.node x ts).events ++ R = .opn x :: (Tree.eventsL ts ++ (.cls x :: R)) := by
        simp [Tree.events]
      rw [hev, flat, hlast, writeData_eq (hd x (by simp [Tree.preorder]))]
      have hcl : Emits put (flat put disp f (lastFlag s) (.cls x :: R)) .content
          (if ts.isEmpty then i1 else clearLast i1) W' r l2 i2 := by
        rw [flat]
        have hpop : (if ts.isEmpty then i1 else clearLast i1).dropLast = clearLast i ∧
            (if ts.isEmpty then i1 else clearLast i1).getLast? ≠ none := by
          have hi1' : i1 ≠ [] := by intro e; rw [e] at hlen; simp at hlen
          rcases i1.eq_nil_or_concat with e | ⟨pre, j, e⟩
          · exact absurd e hi1'
          · rw [List.concat_eq_append] at e
            subst e
            rw [clearLast_append] at hi1
            have := List.append_inj' hi1 rfl
            split
            · simp [this.1]
            · rw [clearLast_append]; simp [this.1]
        refine Emits.step (a := true) (l1 := .content) (i1 := clearLast i) (fun σ => ?_) (by simpa using hR)
        unfold closeItem
        simp only [P.run_bind, P.run_indents]
        cases hg : (if ts.isEmpty then i1 else clearLast i1).getLast? with
        | none => exact absurd hg hpop.2
        | some j => simp only [P.run_bind, P.run_modify, P.run_pure, hpop.1]
      have := hE2 (.cls x :: R) W' r l2 i2 hcl
      have h3 := Emits.bind hE1 (k := fun _ => flat put disp f (lastFlag s) (Tree.eventsL ts ++ (.cls x :: R))) this
      have h4 := Emits.bind (emits_openItem (put := put) last i) (k := fun _ => writeChunks put (lab x) >>= fun _ =>
        flat put disp f (lastFlag s) (Tree.eventsL ts ++ (.cls x :: R))) h3
      simpa [List.append_assoc] using h4
theorem flat_forest (hv : s.Valid) (lab : Nat → List Text) : ∀ (ts : List (Tree Nat)) (i : List IndentLevel)
    (x : Nat) (pre : List Nat), s.kids x = pre ++ ts.map Tree.root → Tree.IsForest s.kids ts →
    (∀ y ∈ Tree.preorderL ts, Shown disp f y (lab y)) →
    OkL (i.length + 1) (Tree.mapL lab ts) →
    ∃ W, W.flatten = (linesL (Tree.mapL List.flatten (Tree.mapL lab ts))).flatMap
        (fun l => '\n' :: prefixOf (clearLast i) ++ l) ∧
      ∀ (R : List (Ev Nat)) (W' : List Text) (r : List (Ev Nat)) (l2 : LineState) (i2 : List IndentLevel),
        Emits put (flat put disp f (lastFlag s) R) .content (if ts.isEmpty then i else clearLast i) W' r l2 i2 →
        Emits put (flat put disp f (lastFlag s) (Tree.eventsL ts ++ R)) .content i (W ++ W') r l2 i2
  | [], i, x, pre, _, _, _, _ => ⟨[], by simp [Tree.mapL, linesL], fun R W' r l2 i2 h => by
      simpa [Tree.eventsL] using h⟩
  | t :: ts, i, x, pre, hk, hf, hd, hok => by
    simp only [Tree.mapL, OkL] at hok
    have hemp : (Tree.mapL lab ts).isEmpty = ts.isEmpty := by cases ts <;> rfl
    have hemp' : (Tree.mapL List.flatten (Tree.mapL lab ts)).isEmpty = ts.isEmpty := by cases ts <;> rfl
    have hlast : lastFlag s t.root = ts.isEmpty := by
      unfold lastFlag
      cases ts with
      | nil => rw [next_last hv (x := x) (pre := pre) (by simpa using hk)]; rfl
      | cons t' ts => rw [next_mid hv (x := x) (pre := pre) (b := t'.root) (post := ts.map Tree.root) (by simpa using hk)]; rfl
    rw [hemp] at hok
    obtain ⟨W1, hW1, hE1⟩ := flat_tree hv lab t i ts.isEmpty hf.1
      (fun y hy => hd y (by simp [Tree.preorderL, hy])) hlast hok.1
    obtain ⟨W2, hW2, hE2⟩ := flat_forest hv lab ts (clearLast i) x (pre ++ [t.root]) (by rw [hk]; simp) hf.2
      (fun y hy => hd y (by simp [Tree.preorderL, hy])) (by rw [length_clearLast]; exact hok.2)
    refine ⟨W1 ++ W2, ?_, ?_⟩
    · rw [List.flatten_append, hW1, hW2, clearLast_clearLast]
      simp only [Tree.mapL, linesL, List.flatMap_append, hemp']
      congr 1
      cases ts.isEmpty <;> rfl
    · intro R W' r l2 i2 hR
      simp only [List.isEmpty_cons, Bool.false_eq_true, if_false] at hR
      have := hE2 R W' r l2 i2 (by rw [clearLast_clearLast]; simpa using hR)
      have := hE1 (Tree.eventsL ts ++ R) _ r l2 i2 this
      simpa [Tree.eventsL, List.append_assoc] using this
end

theorem count_fuel (hm : Models f s) {t : Tree Nat} (ht : Tree.IsTree s.kids t)
    (hx : s.alive t.root = true) : t.events.length < fuel f.hier := by
  have h1 := Tree.count_le_size hm.valid ht hx
  rw [Tree.length_events]
  unfold fuel
  have : f.hier.nbrs.length = s.size := hm.repr.1
  have h2 : 2 * f.hier.nbrs.length + 2 ≤ (2 * f.hier.nbrs.length + 2) * (2 * f.hier.nbrs.length + 3) :=
    Nat.le_mul_of_pos_right _ (by omega)
  omega

theorem inner_eq (hm : Models f s) {t : Tree Nat} (ht : Tree.IsTree s.kids t)
    (hx : s.alive t.root = true) :
    inner put disp f t.root = (writeData put disp f t.root >>= fun _ =>
      flat put disp f (lastFlag s) t.events.tail >>= fun L => P.ofR (Dft.next f.hier (ends L)) >>= fun r =>
      P.when r.1.isSome (P.throw (.panic "assertion failed: traverser.next(hierarchy).is_none()"))) := by
  have w := dft_walk hm ht hx
  have hst : Dft.withToplevel t.root f.hier = .ok (ends t.events) := by
    rw [ends_events]; simp [Dft.withToplevel, hm.hierAlive, hx]
  have hnx : Dft.next f.hier (ends t.events) = .ok (t.events.head?, ends t.events.tail) := w.deNext
  have hfu := count_fuel hm ht hx
  have htl : t.events.tail.length < fuel f.hier := by simp; omega
  unfold inner
  rw [hst, ofR_bind, hnx, ofR_bind]
  refine bind_congr rfl fun _ => ?_
  simp only [printLoop_flat hm (fuel f.hier) (fuel f.hier) t.events.tail w.tail htl htl, bind_assoc, pure_bind]

theorem emits_inner (hm : Models f s) {t : Tree Nat} (ht : Tree.IsTree s.kids t)
    (hx : s.alive t.root = true) (lab : Nat → List Text) (hd : ∀ y ∈ t.preorder, Shown disp f y (lab y))
    (hok : OkTree (t.map lab)) :
    ∃ W l i, W.flatten = render ((t.map lab).map List.flatten) ∧
      Emits put (inner put disp f t.root) .beforeIndent [] W () l i := by
  rw [inner_eq hm ht hx]
  cases t with
  | node x ts =>
    have h1 := ht.1
    have h2 := ht.2
    obtain ⟨W1, hW1, hE1⟩ := emits_writeChunks (put := put) (p := []) (lab x) true [] (fun _ => rfl)
      (fun _ => by simp [clearLast_nil, partialOf, completeOf, stripRev])
    have hf : Filled (lab x).flatten := hok.1
    have hE1' : Emits put (writeChunks put (lab x)) .beforeIndent [] W1 () .content [] := by
      have hne : endNl true (lab x).flatten = false := by
        obtain ⟨c, hc, hn⟩ := hf
        unfold endNl; rw [hc]; simpa using hn
      rw [hne] at hE1
      have : (if '\n' ∈ (lab x).flatten then clearLast [] else []) = [] := by split <;> rfl
      rw [this] at hE1
      exact hE1
    obtain ⟨W2, hW2, hE2⟩ := flat_forest (put := put) hm.valid lab ts [] x [] (by simpa using h1) h2
      (fun y hy => hd y (by simp [Tree.preorder, hy])) (by have := hok.2; simpa only [Tree.map, Tree.subs, List.length_nil, Nat.zero_add] using this)
    refine ⟨W1 ++ W2, .content, [], ?_, ?_⟩
    · rw [List.flatten_append, hW1, weave_nil, hW2, clearLast_nil]
      simp only [Tree.map, render, lines]
      obtain ⟨l, ls, hl⟩ := List.exists_cons_of_ne_nil (splitLines_ne (lab x).flatten)
      have := joinLines_splitLines (lab x).flatten
      rw [hl, joinLines_cons] at this
      rw [hl, List.cons_append, joinLines_cons, List.flatMap_append, ← List.append_assoc, this]
      simp [prefixOf]
    · have htail : (Tree.node x ts).events.tail = Tree.eventsL ts ++ [.cls x] := by simp [Tree.events]
      rw [htail, Tree.root, writeData_eq (hd x (by simp [Tree.preorder]))]
      refine Emits.bind hE1' ?_
      have hcl : Emits put (flat put disp f (lastFlag s) [.cls x]) .content
          (if ts.isEmpty then [] else clearLast []) [] [] .content [] := by
        rw [clearLast_nil, ite_self]
        exact Emits.of_run fun σ => rfl
      have h3 := hE2 _ _ _ _ _ hcl
      rw [List.append_nil] at h3
      refine Emits.done h3 fun σ => ?_
      have : Dft.next f.hier (ends []) = .ok (none, none) := rfl
      rw [this]
      rfl

/-! ### Never a panic -/

/-- The call returns, `Q` holding of the indents and the result if it returns `Ok`; an error leaves as many
indents as there were. -/
def Calm (m : P S α) (Q : List IndentLevel → α → List IndentLevel → Prop) : Prop :=
  ∀ w, match m w with
    | .ok a w' => Q w.indents a w'.indents
    | .err w' => w'.indents.length = w.indents.length
    | .fail _ _ => False

theorem Calm.bind {m : P S α} {k : α → P S β} {Q : List IndentLevel → α → List IndentLevel → Prop}
    {Q' : List IndentLevel → β → List IndentLevel → Prop}
    (h : Calm m Q) (hk : ∀ a w i, Q i a w.indents → match k a w with
      | .ok b w' => Q' i b w'.indents
      | .err w' => w'.indents.length = i.length
      | .fail _ _ => False) : Calm (m >>= k) Q' := by
  intro w
  have := h w
  simp only [P.run_bind]
  cases hm : m w with
  | ok a w' => rw [hm] at this; exact hk a w' w.indents this
  | err w' => rw [hm] at this; exact this
  | fail e w' => rw [hm] at this; exact this

/-- Only the number of open items matters. -/
def SameLen (i : List IndentLevel) (_ : Unit) (i' : List IndentLevel) : Prop := i'.length = i.length

theorem Calm.seq {m : P S Unit} {k : Unit → P S Unit} (h : Calm m SameLen) (hk : Calm (k ()) SameLen) :
    Calm (m >>= k) SameLen :=
  h.bind fun _ w i hi => by
    have := hk w
    cases hm : k () w with
    | ok a w' => rw [hm] at this; exact Eq.trans this hi
    | err w' => rw [hm] at this; exact Eq.trans this hi
    | fail e w' => rw [hm] at this; exact this

theorem calm_emit (t : Text) : Calm (emit put t) SameLen := by
  intro w
  unfold emit
  cases put w.sink t <;> simp [SameLen]

theorem calm_pure : Calm (Pure.pure () : P S Unit) SameLen := fun _ => rfl

theorem calm_setLine (l : LineState) : Calm (setLine l : P S Unit) SameLen := fun _ => rfl

theorem calm_when {b : Bool} {m : P S Unit} (h : b = true → Calm m SameLen) : Calm (P.when b m) SameLen := by
  cases b with
  | true => exact h rfl
  | false => exact fun _ => rfl

theorem calm_clear : Calm (P.modify fun w => { w with indents := clearLast w.indents } : P S Unit) SameLen :=
  fun w => length_clearLast w.indents

theorem calm_emitAll : ∀ is : List IndentLevel, Calm (emitAll put is) SameLen
  | [] => calm_pure
  | _ :: is => (calm_emit _).seq (calm_emitAll is)

theorem calm_partial : Calm (writeIndentPartial put) SameLen := by
  intro w
  unfold writeIndentPartial
  simp only [P.run_bind, P.run_indents]
  cases (stripRev w.indents.reverse).reverse.getLast? with
  | none => rfl
  | some j => exact ((calm_emitAll _).seq (calm_emit _)) w

/-- The line state after the indent has been started. -/
theorem startLine_line (w w' : Writer S) (h : startLine put w = .ok () w') : w'.lineState ≠ .beforeIndent := by
  unfold startLine at h
  simp only [P.run_bind, P.run_line, P.when] at h
  split at h
  · cases hp : writeIndentPartial put w with
    | ok a w1 =>
      rw [hp] at h
      simp only [setLine, P.run_modify, Out.ok.injEq, true_and] at h
      subst h; simp
    | err w1 => rw [hp] at h; simp at h
    | fail e w1 => rw [hp] at h; simp at h
  · rename_i hl
    simp only [Out.ok.injEq, true_and] at h
    subst h; simpa using hl

theorem calm_startLine : Calm (startLine put) SameLen := by
  intro w
  unfold startLine
  simp only [P.run_bind, P.run_line]
  exact calm_when (fun _ => calm_partial.seq (calm_setLine _)) w

/-- The outcome is a return, with `n` open items. -/
def Quiet (r : Out (Writer S) Unit) (n : Nat) : Prop :=
  match r with
  | .ok _ w' => w'.indents.length = n
  | .err w' => w'.indents.length = n
  | .fail _ _ => False

theorem Quiet.bind {m : P S Unit} {k : Unit → P S Unit} {w : Writer S} {n : Nat} (h : Quiet (m w) n)
    (hk : ∀ w', m w = .ok () w' → w'.indents.length = n → Quiet (k () w') n) : Quiet ((m >>= k) w) n := by
  simp only [P.run_bind]
  cases hm : m w with
  | ok a w' => rw [hm] at h; exact hk w' hm h
  | err w' => rw [hm] at h; exact h
  | fail e w' => rw [hm] at h; exact h

theorem Calm.quiet {m : P S Unit} (h : Calm m SameLen) {w : Writer S} {n : Nat} (hw : w.indents.length = n) :
    Quiet (m w) n := by
  have := h w
  unfold Quiet
  cases hm : m w with
  | ok a w' => rw [hm] at this; exact Eq.trans this hw
  | err w' => rw [hm] at this; exact Eq.trans this hw
  | fail e w' => rw [hm] at this; exact this

theorem calm_complete (w : Writer S) (h : w.lineState = .partialIndent) :
    Quiet (completePartialIndent put w) w.indents.length := by
  unfold completePartialIndent
  simp only [P.run_bind, P.run_line, P.run_indents, h, P.when, bne_self_eq_false, Bool.false_eq_true, if_false]
  cases w.indents.getLast? with
  | none => exact calm_pure.quiet rfl
  | some j => exact (calm_emit j.trailingSpaces).quiet rfl

theorem calm_writeContent (c : Text) (nl : Bool) (w : Writer S) (h : w.lineState ≠ .beforeIndent) :
    Quiet (writeContent put c nl w) w.indents.length := by
  unfold writeContent
  cases hc : c.isEmpty with
  | true => exact calm_pure.quiet rfl
  | false =>
    have h1 : (w.lineState == LineState.beforeIndent) = false := by simpa using h
    show Quiet ((do
      let l ← P.line
      P.when (l == .beforeIndent)
        (P.throw (.panic "[consistency] indent must be written since there are something to write"))
      P.when (l == .partialIndent) (completePartialIndent put)
      emit put c
      setLine (if nl then .beforeIndent else .content) : P S Unit) w) _
    rw [P.run_bind]
    simp only [P.run_line]
    refine Quiet.bind (by rw [h1]; exact calm_pure.quiet rfl) fun w1 hw1 _ => ?_
    have e1 : w1 = w := by
      rw [h1] at hw1
      simpa [P.when] using hw1.symm
    subst e1
    refine Quiet.bind ?_ fun w2 _ hw2 => ((calm_emit c).seq (calm_setLine _)).quiet hw2
    cases hp : (w1.lineState == LineState.partialIndent) with
    | true => exact calm_complete w1 (by simpa using hp)
    | false => exact calm_pure.quiet rfl

theorem calm_writeStrLoop : ∀ (n : Nat) (s : Text), s.length ≤ n → Calm (writeStrLoop put n s) SameLen
  | n, [], _ => by cases n <;> exact calm_pure
  | 0, c :: cs, h => by simp at h
  | n + 1, c :: cs, h => by
    unfold writeStrLoop
    intro w
    have h0 := calm_startLine (put := put) w
    simp only [P.run_bind]
    cases hs : startLine put w with
    | err w1 => rw [hs] at h0; exact h0
    | fail e w1 => rw [hs] at h0; exact h0
    | ok a w1 =>
      rw [hs] at h0
      have hl := startLine_line w w1 hs
      simp only
      have h1 : ∃ w2, P.when (lineEnd (c :: cs)).2 (P.modify fun w => { w with indents := clearLast w.indents }) w1
          = .ok () w2 ∧ w2.lineState = w1.lineState ∧ w2.indents.length = w1.indents.length := by
        unfold P.when
        split
        · exact ⟨_, rfl, rfl, length_clearLast _⟩
        · exact ⟨_, rfl, rfl, rfl⟩
      obtain ⟨w2, hw2, hl2, hi2⟩ := h1
      rw [hw2]
      simp only
      have h2 := calm_writeContent (put := put) ((c :: cs).take (lineEnd (c :: cs)).1) (lineEnd (c :: cs)).2 w2
        (by rw [hl2]; exact hl)
      unfold Quiet at h2
      cases hc : writeContent put ((c :: cs).take (lineEnd (c :: cs)).1) (lineEnd (c :: cs)).2 w2 with
      | err w3 => rw [hc] at h2; exact Eq.trans h2 (Eq.trans hi2 h0)
      | fail e w3 => rw [hc] at h2; exact h2
      | ok a w3 =>
        rw [hc] at h2
        simp only
        have hlen : ((c :: cs).drop (lineEnd (c :: cs)).1).length ≤ n := by
          have := lineEnd_pos (s := c :: cs) (by simp)
          simp at h ⊢; omega
        have h3 := calm_writeStrLoop n _ hlen w3
        cases hr : writeStrLoop put n ((c :: cs).drop (lineEnd (c :: cs)).1) w3 with
        | err w4 => rw [hr] at h3; exact Eq.trans h3 (Eq.trans h2 (Eq.trans hi2 h0))
        | fail e w4 => rw [hr] at h3; exact h3
        | ok a w4 =>
          rw [hr] at h3
          exact Eq.trans h3 (Eq.trans h2 (Eq.trans hi2 h0))

theorem calm_runFmt : ∀ (F : Fmt), F.calm → Calm (runFmt put F) SameLen
  | .ret ok, _ => by
    intro w
    cases ok <;> exact rfl
  | .panic, h => h.elim
  | .write t k, h => by
    intro w
    have h0 := calm_writeStrLoop (put := put) t.length t (Nat.le_refl _) w
    simp only [runFmt, writeStr]
    cases hw : writeStrLoop put t.length t w with
    | fail e w1 => rw [hw] at h0; exact h0
    | ok a w1 =>
      rw [hw] at h0
      have := calm_runFmt (k true) (h true) w1
      simp only
      cases hr : runFmt put (k true) w1 with
      | fail e w2 => rw [hr] at this; exact this
      | ok a w2 => rw [hr] at this; exact Eq.trans this h0
      | err w2 => rw [hr] at this; exact Eq.trans this h0
    | err w1 =>
      rw [hw] at h0
      have := calm_runFmt (k false) (h false) w1
      simp only
      cases hr : runFmt put (k false) w1 with
      | fail e w2 => rw [hr] at this; exact this
      | ok a w2 => rw [hr] at this; exact Eq.trans this h0
      | err w2 => rw [hr] at this; exact Eq.trans this h0

/-- The node has data, and its formatter does not panic. -/
def Calms (disp : T → Fmt) (f : Forest T) (y : Nat) : Prop := ∃ d, f.getData y = some d ∧ (disp d).calm

theorem calm_writeData {y : Nat} (h : Calms disp f y) : Calm (writeData put disp f y) SameLen := by
  obtain ⟨d, hd, hc⟩ := h
  unfold writeData
  rw [hd, expect_some, ofR_bind]
  exact calm_runFmt _ hc

theorem calm_openItem (last : Bool) :
    Calm (openItem put last) (fun i _ i' => i'.length = i.length + 1) := by
  intro w
  unfold openItem
  simp only [P.run_bind, P.run_line]
  have := calm_when (b := w.lineState != .beforeIndent)
    (fun _ => (calm_emit (put := put) ['\n']).seq (k := fun _ => setLine .beforeIndent) (calm_setLine _)) w
  revert this
  cases (P.when (w.lineState != .beforeIndent) (do
    emit put ['\n']
    setLine .beforeIndent) w : Out (Writer S) Unit) with
  | ok a w' =>
    intro this
    simp only [SameLen] at this
    simp [P.run_modify, length_clearLast, this]
  | err w' => intro _; trivial
  | fail e w' => exact id

mutual
theorem calm_tree (lastOf : Nat → Bool) : ∀ (t : Tree Nat),
    (∀ y ∈ t.preorder, Calms disp f y) → ∀ (R : List (Ev Nat)) (n : Nat) (r : List (Ev Nat)),
    (∀ w : Writer S, w.indents.length = n → match flat put disp f lastOf R w with
      | .ok a _ => a = r
      | .err _ => True
      | .fail _ _ => False) →
    ∀ w : Writer S, w.indents.length = n → match flat put disp f lastOf (t.events ++ R) w with
      | .ok a _ => a = r
      | .err _ => True
      | .fail _ _ => False
  | .node x ts, hd, R, n, r, hR, w, hw => by
    have hev : (Tree.node x ts).events ++ R = .opn x :: (Tree.eventsL ts ++ (.cls x :: R)) := by
      simp [Tree.events]
    rw [hev, flat]
    simp only [P.run_bind]
    have h1 := calm_openItem (put := put) (lastOf x) w
    cases ho : openItem put (lastOf x) w with
    | err _ => trivial
    | fail e w1 => rw [ho] at h1; exact h1
    | ok a w1 =>
      rw [ho] at h1
      simp only
      have h2 := calm_writeData (put := put) (disp := disp) (hd x (by simp [Tree.preorder])) w1
      cases hwd : writeData put disp f x w1 with
      | err _ => trivial
      | fail e w2 => rw [hwd] at h2; exact h2
      | ok a w2 =>
        rw [hwd] at h2
        simp only
        refine calm_forest lastOf ts (fun y hy => hd y (by simp [Tree.preorder, hy])) (.cls x :: R) (n + 1) r
          (fun w3 hw3 => ?_) w2 (by simp only [SameLen] at h2; omega)
        rw [flat]
        have hne : w3.indents ≠ [] := by intro e; rw [e] at hw3; simp at hw3
        obtain ⟨j, hj⟩ : ∃ j, w3.indents.getLast? = some j :=
          ⟨_, List.getLast?_eq_some_getLast hne⟩
        have hc : (closeItem w3 : Out (Writer S) Bool) = .ok true { w3 with indents := w3.indents.dropLast } := by
          unfold closeItem
          simp only [P.run_bind, P.run_indents, hj, P.run_modify, P.run_pure]
        simp only [P.run_bind, hc, if_true]
        exact hR _ (by simp [hw3])
theorem calm_forest (lastOf : Nat → Bool) : ∀ (ts : List (Tree Nat)),
    (∀ y ∈ Tree.preorderL ts, Calms disp f y) → ∀ (R : List (Ev Nat)) (n : Nat) (r : List (Ev Nat)),
    (∀ w : Writer S, w.indents.length = n → match flat put disp f lastOf R w with
      | .ok a _ => a = r
      | .err _ => True
      | .fail _ _ => False) →
    ∀ w : Writer S, w.indents.length = n → match flat put disp f lastOf (Tree.eventsL ts ++ R) w with
      | .ok a _ => a = r
      | .err _ => True
      | .fail _ _ => False
  | [], _, R, n, r, hR, w, hw => by simpa [Tree.eventsL] using hR w hw
  | t :: ts, hd, R, n, r, hR, w, hw => by
    rw [Tree.eventsL, List.append_assoc]
    exact calm_tree lastOf t (fun y hy => hd y (by simp [Tree.preorderL, hy])) (Tree.eventsL ts ++ R) n r
      (calm_forest lastOf ts (fun y hy => hd y (by simp [Tree.preorderL, hy])) R n r hR) w hw
end

theorem calm_inner (hm : Models f s) {t : Tree Nat} (ht : Tree.IsTree s.kids t)
    (hx : s.alive t.root = true) (hp : ∀ y d, f.getData y = some d → (disp d).calm) (σ : S) :
    ∀ e w, inner put disp f t.root (Writer.new σ) ≠ .fail e w := by
  intro e w hrun
  rw [inner_eq hm ht hx] at hrun
  have hdata : ∀ y ∈ t.preorder, Calms disp f y := fun y hy => by
    have : (f.getData y).isSome = true := by rw [hm.dataAlive]; exact Tree.mem_alive hm.valid ht hx hy
    obtain ⟨d, hd⟩ := Option.isSome_iff_exists.1 this
    exact ⟨d, hd, hp y d hd⟩
  cases t with
  | node x ts =>
    simp only [P.run_bind, Tree.root] at hrun
    have h1 := calm_writeData (put := put) (disp := disp) (hdata x (by simp [Tree.preorder])) (Writer.new σ)
    cases hw : writeData put disp f x (Writer.new σ) with
    | err w1 => rw [hw] at hrun; simp at hrun
    | fail e w1 => rw [hw] at h1; exact h1
    | ok a w1 =>
      rw [hw] at hrun h1
      simp only at hrun
      have htail : (Tree.node x ts).events.tail = Tree.eventsL ts ++ [.cls x] := by simp [Tree.events]
      rw [htail] at hrun
      have h2 := calm_forest (put := put) (disp := disp) (f := f) (lastFlag s) ts
        (fun y hy => hdata y (by simp [Tree.preorder, hy])) [.cls x] 0 [] (fun w hw => by
          have : w.indents = [] := List.eq_nil_of_length_eq_zero hw
          rw [flat]
          have hc : (closeItem w : Out (Writer S) Bool) = .ok false w := by
            unfold closeItem
            simp only [P.run_bind, P.run_indents, this, List.getLast?_nil, P.run_pure]
          simp only [P.run_bind, hc, Bool.false_eq_true, if_false, P.run_pure]) w1 (by
            simpa [SameLen, Writer.new] using h1)
      cases hf : flat put disp f (lastFlag s) (Tree.eventsL ts ++ [.cls x]) w1 with
      | err w2 => rw [hf] at hrun; simp at hrun
      | fail e w2 => rw [hf] at h2; exact h2
      | ok a w2 =>
        rw [hf] at hrun h2
        simp only at h2
        subst h2
        have : Dft.next f.hier (ends []) = .ok (none, none) := rfl
        simp only [this, P.run_ofR_ok, P.when] at hrun
        simp at hrun

end DebugPrint
end Treena
