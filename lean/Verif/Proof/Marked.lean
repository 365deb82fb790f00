import Verif.Proof.Render
import Mathlib.Data.List.Chain
/-! Debug printing into a sink that accepts everything: which characters come from which node. -/

set_option autoImplicit false

namespace Treena
namespace DebugPrint
open Render

variable {T : Type}

/-- The sink `String`. -/
abbrev push (out piece : Text) : Except Text Text := .ok (out ++ piece)

/-- Neighbouring marked characters. -/
def Next (p q : Char × Option Nat) : Prop :=
  p.2 = none ∨ p.1 = '\n' ∨ q.2 = p.2 ∨ (q.2 = none ∧ q.1 = '\n')

def Drawn (c : Char) : Prop := c = '|' ∨ c = '-' ∨ c = '`' ∨ c = ' ' ∨ c = '\n'

def dataOf (m : List (Char × Option Nat)) : List (Char × Nat) := m.filterMap fun p => p.2.map fun y => (p.1, y)

/-- The output so far is `out` followed by the marked characters `m`; `x` is the node being written. -/
structure Inv (out : Text) (x : Nat) (w : Writer Text) (m : List (Char × Option Nat)) : Prop where
  sink : w.sink = out ++ m.map Prod.fst
  chain : m.IsChain Next
  last : ∀ p ∈ m.getLast?, p.2 = none ∨ p.1 = '\n' ∨ (w.lineState = .content ∧ p.2 = some x)
  deco : ∀ c, (c, none) ∈ m → Drawn c

/-- From `w` to `w'` the data `D` is written. -/
def Step (out : Text) (x : Nat) (D : List (Char × Nat)) (w w' : Writer Text) : Prop :=
  w'.indents.length = w.indents.length ∧
  ∀ m, Inv out x w m → ∃ n, Inv out x w' (m ++ n) ∧ dataOf n = D

variable {out : Text} {x : Nat} {w w1 w' : Writer Text} {D D' : List (Char × Nat)}

theorem dataOf_append (a b : List (Char × Option Nat)) : dataOf (a ++ b) = dataOf a ++ dataOf b := by
  simp [dataOf]

theorem Step.trans (h : Step out x D w w1) (h' : Step out x D' w1 w') : Step out x (D ++ D') w w' := by
  refine ⟨h'.1.trans h.1, fun m hm => ?_⟩
  obtain ⟨n, hn, hd⟩ := h.2 m hm
  obtain ⟨n', hn', hd'⟩ := h'.2 _ hn
  exact ⟨n ++ n', by rw [← List.append_assoc]; exact hn', by rw [dataOf_append, hd, hd']⟩

/-- Nothing is written. -/
theorem Step.silent (hs : w'.sink = w.sink) (hl : w.lineState = .content → w'.lineState = .content)
    (hi : w'.indents.length = w.indents.length) : Step out x [] w w' := by
  refine ⟨hi, fun m hm => ⟨[], ?_, rfl⟩⟩
  rw [List.append_nil]
  exact ⟨hs.trans hm.sink, hm.chain, fun p hp => (hm.last p hp).imp id (Or.imp id fun h => ⟨hl h.1, h.2⟩), hm.deco⟩

theorem chain_map (o : Option Nat) : ∀ t : Text, (t.map fun c => (c, o)).IsChain Next
  | [] => .nil
  | [_] => .singleton _
  | a :: b :: t => .cons_cons (.inr (.inr (.inl rfl))) (chain_map o (b :: t))

theorem map_fst (o : Option Nat) (t : Text) : (t.map fun c => (c, o)).map Prod.fst = t := by
  simp [Function.comp_def]

theorem getLast_mark (o : Option Nat) (t : Text) : (t.map fun c => (c, o)).getLast? = t.getLast?.map fun c => (c, o) := by
  simp

/-- Decoration is written where no data precedes on the line. -/
theorem Step.draw {t : Text} (ht : ∀ c ∈ t, Drawn c) (hl : w.lineState ≠ .content) :
    Step out x [] w { w with sink := w.sink ++ t } := by
  refine ⟨rfl, fun m hm => ⟨t.map fun c => (c, none), ⟨?_, ?_, ?_, ?_⟩, ?_⟩⟩
  · rw [List.map_append, map_fst, hm.sink, List.append_assoc]
  · refine List.isChain_append.2 ⟨hm.chain, chain_map _ t, fun p hp q _ => ?_⟩
    rcases hm.last p hp with h | h | h
    · exact .inl h
    · exact .inr (.inl h)
    · exact absurd h.1 hl
  · intro p hp
    cases t with
    | nil => rw [List.map_nil, List.append_nil] at hp; exact hm.last p hp
    | cons a t =>
      rw [List.getLast?_append_of_ne_nil _ (by simp)] at hp
      obtain ⟨c, _, hc⟩ := List.mem_map.1 (List.mem_of_getLast? hp)
      exact .inl (by rw [← hc])
  · intro c hc
    rcases List.mem_append.1 hc with h | h
    · exact hm.deco c h
    · obtain ⟨d, hd, e⟩ := List.mem_map.1 h
      injection e with e; subst e; exact ht d hd
  · simp [dataOf]

/-- Data is written where the line has no data of another node. -/
theorem Step.text {t : Text} {l : LineState} (hl : l = .content ∨ t.getLast? = some '\n') (hne : t ≠ []) :
    Step out x (t.map fun c => (c, x)) w { w with sink := w.sink ++ t, lineState := l } := by
  refine ⟨rfl, fun m hm => ⟨t.map fun c => (c, some x), ⟨?_, ?_, ?_, ?_⟩, ?_⟩⟩
  · rw [List.map_append, map_fst, hm.sink, List.append_assoc]
  · refine List.isChain_append.2 ⟨hm.chain, chain_map _ t, fun p hp q hq => ?_⟩
    rcases hm.last p hp with h | h | h
    · exact .inl h
    · exact .inr (.inl h)
    · refine .inr (.inr (.inl ?_))
      obtain ⟨c, _, hc⟩ := List.mem_map.1 (List.mem_of_mem_head? hq)
      rw [h.2, ← hc]
  · intro p hp
    rw [List.getLast?_append_of_ne_nil _ (by simpa using hne), getLast_mark] at hp
    obtain ⟨c, hc, rfl⟩ := Option.mem_map.1 hp
    rcases hl with rfl | h
    · exact .inr (.inr ⟨rfl, rfl⟩)
    · rw [h] at hc; cases hc; exact .inr (.inl rfl)
  · intro c hc
    rcases List.mem_append.1 hc with h | h
    · exact hm.deco c h
    · obtain ⟨d, _, e⟩ := List.mem_map.1 h
      injection e with _ e; cases e
  · simp [dataOf, List.filterMap_map]

theorem drawn_asStr (i : IndentLevel) : ∀ c ∈ i.asStr, Drawn c := by
  rcases i with ⟨_ | _, _ | _⟩ <;> simp [IndentLevel.asStr, Drawn]
theorem drawn_leading (i : IndentLevel) : ∀ c ∈ i.leading, Drawn c := by
  rcases i with ⟨_ | _, _ | _⟩ <;> simp [IndentLevel.leading, Drawn]
theorem drawn_trailing (i : IndentLevel) : ∀ c ∈ i.trailingSpaces, Drawn c := by
  rcases i with ⟨_ | _, _ | _⟩ <;> simp [IndentLevel.trailingSpaces, Drawn]

theorem emit_push (t : Text) (w : Writer Text) : emit push t w = .ok () { w with sink := w.sink ++ t } := rfl

theorem emitAll_push : ∀ (is : List IndentLevel) (w : Writer Text), w.lineState ≠ .content →
    ∃ w', emitAll push is w = .ok () w' ∧ w'.lineState = w.lineState ∧ Step out x [] w w'
  | [], w, _ => ⟨w, rfl, rfl, .silent rfl id rfl⟩
  | i :: is, w, h => by
    obtain ⟨w', h1, h2, h3⟩ := emitAll_push is { w with sink := w.sink ++ i.asStr } h
    exact ⟨w', h1, h2, (Step.draw (drawn_asStr i) h).trans h3⟩

theorem partial_push (w : Writer Text) (h : w.lineState ≠ .content) :
    ∃ w', writeIndentPartial push w = .ok () w' ∧ w'.lineState = w.lineState ∧ Step out x [] w w' := by
  unfold writeIndentPartial
  simp only [P.run_bind, P.run_indents]
  cases (stripRev w.indents.reverse).reverse.getLast? with
  | none => exact ⟨w, rfl, rfl, .silent rfl id rfl⟩
  | some j =>
    obtain ⟨w', h1, h2, h3⟩ := emitAll_push (out := out) (x := x) (stripRev w.indents.reverse).reverse.dropLast w h
    simp only [P.run_bind, h1, emit_push]
    exact ⟨_, rfl, h2, h3.trans (Step.draw (drawn_leading j) (by rw [h2]; exact h))⟩

theorem startLine_push (w : Writer Text) :
    ∃ w', startLine push w = .ok () w' ∧ w'.lineState ≠ .beforeIndent ∧ Step out x [] w w' := by
  unfold startLine
  simp only [P.run_bind, P.run_line, P.when]
  by_cases h : w.lineState = .beforeIndent
  · obtain ⟨w', h1, h2, h3⟩ := partial_push (out := out) (x := x) w (by rw [h]; simp)
    rw [h, beq_self_eq_true, if_pos rfl, h1]
    refine ⟨_, rfl, by simp, h3.trans (w1 := w') (D' := []) (.silent rfl (fun hc => ?_) rfl)⟩
    rw [h2, h] at hc; cases hc
  · have hb : (w.lineState == LineState.beforeIndent) = false := by simpa using h
    rw [hb]
    exact ⟨w, rfl, h, .silent rfl id rfl⟩

theorem complete_push (w : Writer Text) (h : w.lineState = .partialIndent) :
    ∃ w', completePartialIndent push w = .ok () w' ∧ w'.lineState = w.lineState ∧ Step out x [] w w' := by
  unfold completePartialIndent
  simp only [P.run_bind, P.run_line, P.run_indents, h, P.when, bne_self_eq_false, Bool.false_eq_true, if_false]
  cases w.indents.getLast? with
  | none => exact ⟨w, rfl, h, .silent rfl id rfl⟩
  | some j => exact ⟨_, rfl, h, Step.draw (drawn_trailing j) (by rw [h]; simp)⟩

theorem writeContent_push {c : Text} (hc : c ≠ []) {nl : Bool} (hnl : nl = true → c.getLast? = some '\n')
    (w : Writer Text) (h : w.lineState ≠ .beforeIndent) :
    ∃ w', writeContent push c nl w = .ok () w' ∧ Step out x (c.map fun a => (a, x)) w w' := by
  have hne : c.isEmpty = false := by simpa using hc
  have hb : (w.lineState == LineState.beforeIndent) = false := by simpa using h
  have hl : (if nl then LineState.beforeIndent else .content) = .content ∨ c.getLast? = some '\n' := by
    cases nl
    · exact .inl rfl
    · exact .inr (hnl rfl)
  unfold writeContent
  simp only [P.when, hne, Bool.not_false, if_true, P.run_bind, P.run_line, hb, Bool.false_eq_true, if_false]
  by_cases hp : w.lineState = .partialIndent
  · obtain ⟨w', h1, h2, h3⟩ := complete_push (out := out) (x := x) w hp
    rw [hp, beq_self_eq_true, if_pos rfl, h1]
    exact ⟨_, rfl, h3.trans (Step.text (w := w') hl hc)⟩
  · have hb' : (w.lineState == LineState.partialIndent) = false := by simpa using hp
    rw [hb']
    exact ⟨_, rfl, Step.text (w := w) hl hc⟩

theorem take_lineEnd_nl {s : Text} (h : (lineEnd s).2 = true) : (s.take (lineEnd s).1).getLast? = some '\n' := by
  by_cases hn : '\n' ∈ s
  · obtain ⟨a, r, rfl, ha⟩ := split_nl hn
    rw [lineEnd_nl ha, show a ++ '\n' :: r = (a ++ ['\n']) ++ r by simp, List.take_left' (by simp)]
    simp
  · rw [lineEnd_line hn] at h; cases h

theorem writeStrLoop_push : ∀ (n : Nat) (s : Text) (w : Writer Text), s.length ≤ n →
    ∃ w', writeStrLoop push n s w = .ok () w' ∧ Step out x (s.map fun a => (a, x)) w w'
  | n, [], w, _ => ⟨w, by cases n <;> rfl, .silent rfl id rfl⟩
  | 0, c :: cs, _, h => by simp at h
  | n + 1, c :: cs, w, h => by
    unfold writeStrLoop
    obtain ⟨w1, h1, hl1, s1⟩ := startLine_push (out := out) (x := x) w
    have : ∃ w2, P.when (lineEnd (c :: cs)).2 (P.modify fun w => { w with indents := clearLast w.indents }) w1
        = .ok () w2 ∧ w2.lineState = w1.lineState ∧ Step out x [] w1 w2 := by
      unfold P.when
      split
      · exact ⟨_, rfl, rfl, .silent rfl id (length_clearLast _)⟩
      · exact ⟨_, rfl, rfl, .silent rfl id rfl⟩
    obtain ⟨w2, h2, hl2, s2⟩ := this
    obtain ⟨w3, h3, s3⟩ := writeContent_push (out := out) (x := x) (take_lineEnd_ne (s := c :: cs) (by simp))
      (nl := (lineEnd (c :: cs)).2) take_lineEnd_nl w2 (by rw [hl2]; exact hl1)
    obtain ⟨w4, h4, s4⟩ := writeStrLoop_push n ((c :: cs).drop (lineEnd (c :: cs)).1) w3 (by
      have := lineEnd_pos (s := c :: cs) (by simp)
      simp at h ⊢; omega)
    refine ⟨w4, ?_, ?_⟩
    · simp only [P.run_bind, h1, h2, h3, h4]
    · have := s1.trans (s2.trans (s3.trans s4))
      rw [← List.map_append, List.take_append_drop] at this
      exact this

theorem runFmt_push : ∀ (F : Fmt) (t : Text) (w : Writer Text), F.says = some t →
    ∃ w', runFmt push F w = .ok () w' ∧ Step out x (t.map fun a => (a, x)) w w'
  | .ret ok, t, w, h => by
    cases ok with
    | false => cases h
    | true =>
      simp only [Fmt.says, if_true, Option.some.injEq] at h
      subst h
      exact ⟨w, rfl, .silent rfl id rfl⟩
  | .panic, _, _, h => by cases h
  | .write a k, t, w, h => by
    simp only [Fmt.says] at h
    obtain ⟨u, hu, rfl⟩ := Option.map_eq_some_iff.1 h
    obtain ⟨w1, h1, s1⟩ := writeStrLoop_push (out := out) (x := x) a.length a w (Nat.le_refl _)
    obtain ⟨w2, h2, s2⟩ := runFmt_push (k true) u w1 hu
    refine ⟨w2, ?_, ?_⟩
    · simp only [runFmt, writeStr, h1, h2]
    · rw [List.map_append]; exact s1.trans s2

/-- The data of the node says `t`. -/
def Says (disp : T → Fmt) (f : Forest T) (y : Nat) (t : Text) : Prop :=
  ∃ d, f.getData y = some d ∧ (disp d).says = some t

variable {f : Forest T} {s : Shape} {disp : T → Fmt}

theorem writeData_push {t : Text} (w : Writer Text) (h : Says disp f x t) :
    ∃ w', writeData push disp f x w = .ok () w' ∧ Step out x (t.map fun a => (a, x)) w w' := by
  obtain ⟨d, h1, h2⟩ := h
  unfold writeData
  rw [h1, expect_some, ofR_bind]
  exact runFmt_push _ _ w h2

theorem openItem_push (last : Bool) (y : Nat) (w : Writer Text) (m : List (Char × Option Nat)) (h : Inv out x w m) :
    ∃ w' n, openItem push last w = .ok () w' ∧ w'.indents.length = w.indents.length + 1 ∧
      Inv out y w' (m ++ n) ∧ dataOf n = [] := by
  unfold openItem
  simp only [P.run_bind, P.run_line, P.when]
  by_cases hb : w.lineState = .beforeIndent
  · rw [hb, bne_self_eq_false]
    refine ⟨_, [], rfl, by simp [length_clearLast], ?_, rfl⟩
    rw [List.append_nil]
    refine ⟨h.sink, h.chain, fun p hp => ?_, h.deco⟩
    rcases h.last p hp with h | h | h
    · exact .inl h
    · exact .inr (.inl h)
    · rw [hb] at h; cases h.1
  · have hb' : (w.lineState != LineState.beforeIndent) = true := by simpa using hb
    rw [hb']
    refine ⟨_, [('\n', none)], rfl, by simp [length_clearLast], ?_, rfl⟩
    refine ⟨?_, ?_, ?_, ?_⟩
    · show w.sink ++ ['\n'] = _
      rw [h.sink]; simp
    · refine List.isChain_append.2 ⟨h.chain, .singleton _, fun p _ q hq => ?_⟩
      simp only [List.head?_cons, Option.mem_some_iff] at hq
      subst hq
      exact .inr (.inr (.inr ⟨rfl, rfl⟩))
    · intro p hp
      rw [List.getLast?_append_of_ne_nil _ (by simp)] at hp
      simp only [List.getLast?_singleton, Option.mem_some_iff] at hp
      subst hp; exact .inl rfl
    · intro c hc
      rcases List.mem_append.1 hc with h' | h'
      · exact h.deco c h'
      · simp only [List.mem_singleton, Prod.mk.injEq, and_true] at h'
        subst h'; simp [Drawn]

/-- The data of a list of nodes. -/
def allData (text : Nat → Text) (l : List Nat) : List (Char × Nat) := l.flatMap fun y => (text y).map fun c => (c, y)

theorem allData_append (text : Nat → Text) (a b : List Nat) : allData text (a ++ b) = allData text a ++ allData text b := by
  simp [allData]

mutual
theorem flat_push (text : Nat → Text) (lastOf : Nat → Bool) : ∀ (t : Tree Nat),
    (∀ y ∈ t.preorder, Says disp f y (text y)) → ∀ (R : List (Ev Nat)) (w : Writer Text) (x : Nat)
    (m : List (Char × Option Nat)), Inv out x w m →
    ∃ w' n z, flat push disp f lastOf (t.events ++ R) w = flat push disp f lastOf R w' ∧
      w'.indents.length = w.indents.length ∧ Inv out z w' (m ++ n) ∧ dataOf n = allData text t.preorder
  | .node y ts, hd, R, w, x, m, hi => by
    have hev : (Tree.node y ts).events ++ R = .opn y :: (Tree.eventsL ts ++ (.cls y :: R)) := by
      simp [Tree.events]
    obtain ⟨w1, n1, h1, l1, i1, d1⟩ := openItem_push (lastOf y) y w m hi
    obtain ⟨w2, h2, l2, s2⟩ := writeData_push (out := out) w1 (hd y (by simp [Tree.preorder]))
    obtain ⟨n2, i2, d2⟩ := s2 _ i1
    obtain ⟨w3, n3, z, h3, l3, i3, d3⟩ := flatL_push text lastOf ts (fun a ha => hd a (by simp [Tree.preorder, ha]))
      (.cls y :: R) w2 y _ i2
    have hne : w3.indents ≠ [] := by intro e; rw [e, l2, l1] at l3; simp at l3
    obtain ⟨j, hj⟩ : ∃ j, w3.indents.getLast? = some j := ⟨_, List.getLast?_eq_some_getLast hne⟩
    have hc : (closeItem w3 : Out (Writer Text) Bool) = .ok true { w3 with indents := w3.indents.dropLast } := by
      unfold closeItem
      simp only [P.run_bind, P.run_indents, hj, P.run_modify, P.run_pure]
    refine ⟨{ w3 with indents := w3.indents.dropLast }, n1 ++ n2 ++ n3, z, ?_, ?_, ?_, ?_⟩
    · rw [hev, flat]
      simp only [P.run_bind, h1, h2, h3]
      rw [flat]
      simp only [P.run_bind, hc, if_true]
    · simp [l3, l2, l1]
    · rw [← List.append_assoc, ← List.append_assoc]
      exact ⟨i3.sink, i3.chain, i3.last, i3.deco⟩
    · rw [dataOf_append, dataOf_append, d1, d2, d3]
      simp [allData, Tree.preorder]
theorem flatL_push (text : Nat → Text) (lastOf : Nat → Bool) : ∀ (ts : List (Tree Nat)),
    (∀ y ∈ Tree.preorderL ts, Says disp f y (text y)) → ∀ (R : List (Ev Nat)) (w : Writer Text) (x : Nat)
    (m : List (Char × Option Nat)), Inv out x w m →
    ∃ w' n z, flat push disp f lastOf (Tree.eventsL ts ++ R) w = flat push disp f lastOf R w' ∧
      w'.indents.length = w.indents.length ∧ Inv out z w' (m ++ n) ∧ dataOf n = allData text (Tree.preorderL ts)
  | [], _, R, w, x, m, hi => ⟨w, [], x, by simp [Tree.eventsL], rfl, by simpa using hi, rfl⟩
  | t :: ts, hd, R, w, x, m, hi => by
    obtain ⟨w1, n1, z1, h1, l1, i1, d1⟩ := flat_push text lastOf t (fun a ha => hd a (by simp [Tree.preorderL, ha]))
      (Tree.eventsL ts ++ R) w x m hi
    obtain ⟨w2, n2, z2, h2, l2, i2, d2⟩ := flatL_push text lastOf ts (fun a ha => hd a (by simp [Tree.preorderL, ha]))
      R w1 z1 _ i1
    refine ⟨w2, n1 ++ n2, z2, ?_, l2.trans l1, by rw [← List.append_assoc]; exact i2, ?_⟩
    · rw [Tree.eventsL, List.append_assoc, h1, h2]
    · rw [dataOf_append, d1, d2, Tree.preorderL, allData_append]
end

theorem inner_push (hm : Models f s) {t : Tree Nat} (ht : Tree.IsTree s.kids t) (hx : s.alive t.root = true)
    (text : Nat → Text) (hd : ∀ y ∈ t.preorder, Says disp f y (text y)) (out : Text) :
    ∃ w' n z, inner push disp f t.root (Writer.new out) = .ok () w' ∧ Inv out z w' n ∧
      dataOf n = allData text t.preorder := by
  rw [inner_eq hm ht hx]
  cases t with
  | node x ts =>
    have i0 : Inv out x (Writer.new out) [] := ⟨by simp [Writer.new], .nil, by simp, by simp⟩
    obtain ⟨w1, h1, l1, s1⟩ := writeData_push (out := out) (Writer.new out) (hd x (by simp [Tree.preorder]))
    obtain ⟨n1, i1, d1⟩ := s1 _ i0
    obtain ⟨w2, n2, z, h2, l2, i2, d2⟩ := flatL_push text (lastFlag s) ts (fun a ha => hd a (by simp [Tree.preorder, ha]))
      [.cls x] w1 x _ i1
    have hnil : w2.indents = [] := List.eq_nil_of_length_eq_zero (by rw [l2, l1]; rfl)
    have hc : (closeItem w2 : Out (Writer Text) Bool) = .ok false w2 := by
      unfold closeItem
      simp only [P.run_bind, P.run_indents, hnil, List.getLast?_nil, P.run_pure]
    have htail : (Tree.node x ts).events.tail = Tree.eventsL ts ++ [.cls x] := by simp [Tree.events]
    refine ⟨w2, n1 ++ n2, z, ?_, by simpa using i2, ?_⟩
    · rw [htail, Tree.root]
      simp only [P.run_bind, h1, h2]
      rw [flat]
      simp only [P.run_bind, hc, Bool.false_eq_true, if_false, P.run_pure]
      have : Dft.next f.hier (ends []) = .ok (none, none) := rfl
      simp only [this, P.run_ofR_ok, P.when]
      simp
    · rw [dataOf_append, d1, d2]
      simp [allData, Tree.preorder]

/-! ### A formatter that fails -/

theorem runFmt_refuse : ∀ (F : Fmt) (w : Writer Text), F.says = none → ∀ a w', runFmt push F w ≠ .ok a w'
  | .ret ok, w, h, a, w' => by
    cases ok with
    | true => cases h
    | false => simp [runFmt]
  | .panic, w, _, a, w' => by simp [runFmt]
  | .write t k, w, h, a, w' => by
    simp only [Fmt.says, Option.map_eq_none_iff] at h
    obtain ⟨w1, h1, _⟩ := writeStrLoop_push (out := []) (x := 0) t.length t w (Nat.le_refl _)
    simp only [runFmt, writeStr, h1]
    exact runFmt_refuse (k true) w1 h a w'

theorem writeData_refuse {d : T} (h : f.getData x = some d) (hs : (disp d).says = none) (w : Writer Text) :
    ∀ a w', writeData push disp f x w ≠ .ok a w' := by
  unfold writeData
  rw [h, expect_some, ofR_bind]
  exact runFmt_refuse _ w hs

theorem says_or (hy : (f.getData x).isSome = true) :
    (∃ t, Says disp f x t) ∨ ∃ d, f.getData x = some d ∧ (disp d).says = none := by
  obtain ⟨d, hd⟩ := Option.isSome_iff_exists.1 hy
  cases h : (disp d).says with
  | none => exact .inr ⟨d, hd, h⟩
  | some t => exact .inl ⟨t, d, hd, h⟩

/-- The text of a node, if its formatter succeeds. -/
def textOf (disp : T → Fmt) (f : Forest T) (y : Nat) : Text := (((f.getData y).bind fun d => (disp d).says)).getD []

theorem Says.textOf {t : Text} (h : Says disp f x t) : Says disp f x (textOf disp f x) := by
  obtain ⟨d, hd, h1⟩ := h
  exact ⟨d, hd, by simp [DebugPrint.textOf, hd, h1]⟩

mutual
theorem flat_refuse (lastOf : Nat → Bool) : ∀ (t : Tree Nat), (∀ y ∈ t.preorder, (f.getData y).isSome = true) →
    (¬ ∀ y ∈ t.preorder, ∃ u, Says disp f y u) → ∀ (R : List (Ev Nat)) (w : Writer Text) (x : Nat)
    (m : List (Char × Option Nat)), Inv out x w m → ∀ a w', flat push disp f lastOf (t.events ++ R) w ≠ .ok a w'
  | .node y ts, hd, hno, R, w, x, m, hi, a, w' => by
    have hev : (Tree.node y ts).events ++ R = .opn y :: (Tree.eventsL ts ++ (.cls y :: R)) := by
      simp [Tree.events]
    obtain ⟨w1, n1, h1, l1, i1, d1⟩ := openItem_push (lastOf y) y w m hi
    rw [hev, flat]
    simp only [P.run_bind, h1]
    rcases says_or (disp := disp) (hd y (by simp [Tree.preorder])) with ⟨t, ht⟩ | ⟨d, h2, h3⟩
    · obtain ⟨w2, h2, l2, s2⟩ := writeData_push (out := out) w1 ht
      obtain ⟨n2, i2, d2⟩ := s2 _ i1
      simp only [h2]
      refine flatL_refuse lastOf ts (fun a ha => hd a (by simp [Tree.preorder, ha])) (fun hall => hno ?_) _ w2 y _ i2 a w'
      intro z hz
      simp only [Tree.preorder, List.mem_cons] at hz
      rcases hz with rfl | hz
      · exact ⟨t, ht⟩
      · exact hall z hz
    · have := writeData_refuse h2 h3 w1
      cases hw : writeData push disp f y w1 with
      | ok a w2 => exact absurd hw (this a w2)
      | err w2 => simp
      | fail e w2 => simp
theorem flatL_refuse (lastOf : Nat → Bool) : ∀ (ts : List (Tree Nat)), (∀ y ∈ Tree.preorderL ts, (f.getData y).isSome = true) →
    (¬ ∀ y ∈ Tree.preorderL ts, ∃ u, Says disp f y u) → ∀ (R : List (Ev Nat)) (w : Writer Text) (x : Nat)
    (m : List (Char × Option Nat)), Inv out x w m → ∀ a w', flat push disp f lastOf (Tree.eventsL ts ++ R) w ≠ .ok a w'
  | [], _, hno, _, _, _, _, _, _, _ => absurd (by simp [Tree.preorderL]) hno
  | t :: ts, hd, hno, R, w, x, m, hi, a, w' => by
    rw [Tree.eventsL, List.append_assoc]
    by_cases ht : ∀ y ∈ t.preorder, ∃ u, Says disp f y u
    · obtain ⟨w1, n1, z1, h1, l1, i1, d1⟩ := flat_push (textOf disp f) lastOf t
        (fun y hy => (ht y hy).elim fun _ h => h.textOf) (Tree.eventsL ts ++ R) w x m hi
      rw [h1]
      refine flatL_refuse lastOf ts (fun a ha => hd a (by simp [Tree.preorderL, ha])) (fun hall => hno ?_) R w1 z1 _ i1 a w'
      intro z hz
      simp only [Tree.preorderL, List.mem_append] at hz
      exact hz.elim (ht z) (hall z)
    · exact flat_refuse lastOf t (fun a ha => hd a (by simp [Tree.preorderL, ha])) ht (Tree.eventsL ts ++ R) w x m hi a w'
end

theorem inner_refuse (hm : Models f s) {t : Tree Nat} (ht : Tree.IsTree s.kids t) (hx : s.alive t.root = true)
    (out : Text) {w' : Writer Text} (h : inner push disp f t.root (Writer.new out) = .ok () w') :
    ∀ y ∈ t.preorder, ∃ u, Says disp f y u := by
  have hdata : ∀ y ∈ t.preorder, (f.getData y).isSome = true := fun y hy => by
    rw [hm.dataAlive]; exact Tree.mem_alive hm.valid ht hx hy
  rw [inner_eq hm ht hx] at h
  cases t with
  | node x ts =>
    have i0 : Inv out x (Writer.new out) [] := ⟨by simp [Writer.new], .nil, by simp, by simp⟩
    have htail : (Tree.node x ts).events.tail = Tree.eventsL ts ++ [.cls x] := by simp [Tree.events]
    rw [htail, Tree.root] at h
    simp only [P.run_bind] at h
    rcases says_or (disp := disp) (hdata x (by simp [Tree.preorder])) with ⟨u, hu⟩ | ⟨d, h2, h3⟩
    · obtain ⟨w1, h1, l1, s1⟩ := writeData_push (out := out) (Writer.new out) hu
      obtain ⟨n1, i1, d1⟩ := s1 _ i0
      rw [h1] at h
      simp only at h
      intro y hy
      simp only [Tree.preorder, List.mem_cons] at hy
      rcases hy with rfl | hy
      · exact ⟨u, hu⟩
      · by_contra hno
        have := flatL_refuse (lastFlag s) ts (fun a ha => hdata a (by simp [Tree.preorder, ha]))
          (fun hall => hno (hall y hy)) [.cls x] w1 x _ i1
        cases hf : flat push disp f (lastFlag s) (Tree.eventsL ts ++ [.cls x]) w1 with
        | ok a w2 => exact absurd hf (this a w2)
        | err w2 => rw [hf] at h; simp at h
        | fail e w2 => rw [hf] at h; simp at h
    · have := writeData_refuse h2 h3 (Writer.new out)
      cases hw : writeData push disp f x (Writer.new out) with
      | ok a w2 => exact absurd hw (this a w2)
      | err w2 => rw [hw] at h; simp at h
      | fail e w2 => rw [hw] at h; simp at h

/-- The marking of the output. -/
theorem Inv.faithful {z : Nat} {n : List (Char × Option Nat)} {order : List Nat} {text : Nat → Text}
    (h : Inv out z w n) (hd : dataOf n = allData text order) : Faithful order text n := by
  refine ⟨hd, h.deco, ?_⟩
  rintro A a x c o B rfl
  have := (List.isChain_append.1 h.chain).2.1
  cases this with
  | cons_cons h1 _ =>
    rcases h1 with h1 | h1 | h1 | h1
    · cases h1
    · exact .inl h1
    · exact .inr (.inl h1)
    · exact .inr (.inr h1)

end DebugPrint
end Treena
