import Verif.Proof.Printed
/-! When the printed text is the picture. -/

set_option autoImplicit false

namespace Treena
namespace DebugPrint
open Render Printed

/-! ### The picture, node by node -/

/-- The margin of the first line of a node in the picture. -/
def margin1 (path : List Bool) : Text :=
  match path.reverse with
  | [] => []
  | last :: up => up.reverse.flatMap bar ++ (if last then ['`', '-', '-', ' '] else ['|', '-', '-', ' '])

/-- The margin of the other lines. -/
def margin2 (path : List Bool) : Text := path.flatMap bar

theorem margin1_snoc (p : List Bool) (b : Bool) :
    margin1 (p ++ [b]) = margin2 p ++ (if b then ['`', '-', '-', ' '] else ['|', '-', '-', ' ']) := by
  simp [margin1, margin2]

theorem margin2_snoc (p : List Bool) (b : Bool) : margin2 (p ++ [b]) = margin2 p ++ bar b := by simp [margin2]

/-- The lines of a node in the picture. -/
def nodeLines (n : List Bool × List Text) : List Text := indent (margin1 n.1) (margin2 n.1) (splitLines n.2.flatten)

theorem indent_append (F p : Text) {A : List Text} (h : A ≠ []) (B : List Text) :
    indent F p (A ++ B) = indent F p A ++ B.map (p ++ ·) := by
  cases A with
  | nil => exact absurd rfl h
  | cons a A => simp [indent]

theorem map_indent (P F p : Text) (A : List Text) :
    (indent F p A).map (P ++ ·) = indent (P ++ F) (P ++ p) A := by
  cases A <;> simp [indent]

mutual
theorem lines_nodes : ∀ (t : Tree (List Text)) (p : List Bool),
    indent (margin1 p) (margin2 p) (lines (t.map List.flatten)) = (nodes p t).flatMap nodeLines
  | .node cs ts, p => by
    simp only [Tree.map, lines, nodes, List.flatMap_cons, nodeLines]
    rw [indent_append _ _ (splitLines_ne _), linesL_nodes ts p]
theorem linesL_nodes : ∀ (ts : List (Tree (List Text))) (p : List Bool),
    (linesL (Tree.mapL List.flatten ts)).map (margin2 p ++ ·) = (nodesL p ts).flatMap nodeLines
  | [], p => by simp [Tree.mapL, linesL, nodesL]
  | t :: ts, p => by
    simp only [Tree.mapL, linesL, nodesL, List.map_append, List.flatMap_append]
    have hemp : (Tree.mapL List.flatten ts).isEmpty = ts.isEmpty := by cases ts <;> rfl
    rw [linesL_nodes ts p, ← lines_nodes t, hemp, margin1_snoc, margin2_snoc]
    cases ts.isEmpty <;> simp only [Bool.false_eq_true, if_false, if_true, map_indent] <;> rfl
end

theorem indent_nil (A : List Text) : indent [] [] A = A := by
  cases A with
  | nil => rfl
  | cons a A => simp [indent]

theorem render_nodes (t : Tree (List Text)) :
    render (t.map List.flatten) = joinLines ((nodes [] t).flatMap nodeLines) := by
  rw [← lines_nodes]
  show _ = joinLines (indent [] [] _)
  rw [indent_nil]; rfl

/-! ### Counting newlines -/

theorem bar_nl (b : Bool) : '\n' ∉ bar b := by cases b <;> decide

theorem bars_nl (l : List Bool) : '\n' ∉ l.flatMap bar := by
  intro h
  obtain ⟨b, _, hb⟩ := List.mem_flatMap.1 h
  exact bar_nl b hb

theorem margin_nl (path : List Bool) (first nl : Bool) : '\n' ∉ margin path first nl := by
  unfold margin
  split
  · simp
  · rename_i last up _
    cases first
    · cases last
      · exact bars_nl path
      · simp only [Bool.false_eq_true, if_false, if_true]
        split
        · decide
        · rw [List.mem_append, not_or]; exact ⟨bars_nl _, by decide⟩
    · simp only [if_true]
      rw [List.mem_append, List.mem_append, not_or, not_or]
      refine ⟨⟨bars_nl _, ?_⟩, ?_⟩
      · cases last <;> decide
      · cases nl <;> cases last <;> decide

theorem margin1_nl (path : List Bool) : '\n' ∉ margin1 path := by
  unfold margin1
  split
  · simp
  · rename_i last up _
    rw [List.mem_append, not_or]
    exact ⟨bars_nl _, by cases last <;> decide⟩

theorem count_zero {s : Text} (h : '\n' ∉ s) : s.count '\n' = 0 := List.count_eq_zero.2 h

theorem count_body (path : List Bool) : ∀ (cs : List Text) (b first : Bool),
    (body path b first cs).count '\n' = cs.flatten.count '\n'
  | [], _, _ => rfl
  | c :: cs, b, first => by
    rw [body, List.count_append, List.count_append, count_body path cs, List.flatten_cons, List.count_append]
    cases b
    · simp
    · simp [count_zero (margin_nl path first (endsLine c))]

theorem splitLines_nl : ∀ (s : Text), ∀ l ∈ splitLines s, '\n' ∉ l
  | [], l, h => by simp [splitLines] at h; subst h; simp
  | c :: s, l, h => by
    have ih := splitLines_nl s
    unfold splitLines at h
    split at h
    · rcases List.mem_cons.1 h with rfl | h
      · simp
      · exact ih l h
    · rename_i hc
      cases hs : splitLines s with
      | nil => exact absurd hs (splitLines_ne s)
      | cons m ms =>
        rw [hs] at h ih
        rcases List.mem_cons.1 h with rfl | h
        · have := ih m (by simp)
          simp [this, Ne.symm hc]
        · exact ih l (by simp [h])

theorem length_splitLines : ∀ s : Text, (splitLines s).length = s.count '\n' + 1
  | [] => rfl
  | c :: s => by
    have ih := length_splitLines s
    unfold splitLines
    split
    · rename_i h; subst h; simp [ih]
    · rename_i h
      cases hs : splitLines s with
      | nil => exact absurd hs (splitLines_ne s)
      | cons m ms =>
        rw [hs] at ih
        rw [List.count_cons_of_ne h]
        simpa using ih

theorem length_indent (F p : Text) (A : List Text) : (indent F p A).length = A.length := by
  cases A <;> simp [indent]

theorem nodeLines_nl (n : List Bool × List Text) : ∀ l ∈ nodeLines n, '\n' ∉ l := by
  intro l hl
  unfold nodeLines at hl
  have h1 := splitLines_nl n.2.flatten
  cases hs : splitLines n.2.flatten with
  | nil => rw [hs] at hl; simp [indent] at hl
  | cons a A =>
    rw [hs] at hl h1
    simp only [indent, List.mem_cons, List.mem_map] at hl
    rcases hl with rfl | ⟨b, hb, rfl⟩
    · rw [List.mem_append, not_or]; exact ⟨margin1_nl _, h1 a (by simp)⟩
    · rw [List.mem_append, not_or]; exact ⟨bars_nl _, h1 b (by simp [hb])⟩

theorem length_nodeLines (n : List Bool × List Text) : (nodeLines n).length = n.2.flatten.count '\n' + 1 := by
  rw [nodeLines, length_indent, length_splitLines]

/-- Lines, each preceded by a newline. -/
def nlLines (A : List Text) : Text := A.flatMap fun l => '\n' :: l

theorem nlLines_append (A B : List Text) : nlLines (A ++ B) = nlLines A ++ nlLines B := by simp [nlLines]

theorem count_nlLines : ∀ A : List Text, (∀ l ∈ A, '\n' ∉ l) → (nlLines A).count '\n' = A.length
  | [], _ => rfl
  | a :: A, h => by
    have ih := count_nlLines A fun l hl => h l (by simp [hl])
    show ('\n' :: a ++ nlLines A).count '\n' = _
    rw [List.cons_append, List.count_cons_self, List.count_append, ih, count_zero (h a (by simp))]
    simp

/-- Texts broken into lines uniquely. -/
theorem split_unique : ∀ {a b x y : Text}, '\n' ∉ a → '\n' ∉ b →
    (x = [] ∨ ∃ u, x = '\n' :: u) → (y = [] ∨ ∃ u, y = '\n' :: u) → a ++ x = b ++ y → a = b ∧ x = y
  | [], [], x, y, _, _, _, _, h => ⟨rfl, h⟩
  | [], c :: b, x, y, _, hb, hx, _, h => by
    exfalso
    rcases hx with rfl | ⟨u, rfl⟩
    · simp at h
    · simp at h; exact hb (by rw [h.1]; simp)
  | c :: a, [], x, y, ha, _, _, hy, h => by
    exfalso
    rcases hy with rfl | ⟨u, rfl⟩
    · simp at h
    · simp at h; exact ha (by rw [h.1]; simp)
  | c :: a, d :: b, x, y, ha, hb, hx, hy, h => by
    rw [List.mem_cons, not_or] at ha hb
    simp only [List.cons_append, List.cons.injEq] at h
    obtain ⟨rfl, h⟩ := h
    obtain ⟨rfl, rfl⟩ := split_unique ha.2 hb.2 hx hy h
    exact ⟨rfl, rfl⟩

theorem nlLines_head : ∀ (A : List Text) (x : Text), (x = [] ∨ ∃ u, x = '\n' :: u) →
    (nlLines A ++ x = [] ∨ ∃ u, nlLines A ++ x = '\n' :: u)
  | [], _, h => h
  | a :: A, x, _ => .inr ⟨a ++ nlLines A ++ x, by simp [nlLines]⟩

theorem nlLines_unique : ∀ {A B : List Text} {x y : Text}, (∀ l ∈ A, '\n' ∉ l) → (∀ l ∈ B, '\n' ∉ l) →
    A.length = B.length → (x = [] ∨ ∃ u, x = '\n' :: u) → (y = [] ∨ ∃ u, y = '\n' :: u) →
    nlLines A ++ x = nlLines B ++ y → A = B ∧ x = y
  | [], [], x, y, _, _, _, _, _, h => ⟨rfl, h⟩
  | [], _ :: _, _, _, _, _, h, _, _, _ => by simp at h
  | _ :: _, [], _, _, _, _, h, _, _, _ => by simp at h
  | a :: A, b :: B, x, y, hA, hB, hl, hx, hy, h => by
    have h' : a ++ (nlLines A ++ x) = b ++ (nlLines B ++ y) := by
      simpa [nlLines, List.append_assoc] using h
    obtain ⟨rfl, h''⟩ := split_unique (hA a (by simp)) (hB b (by simp)) (nlLines_head A x hx) (nlLines_head B y hy) h'
    obtain ⟨rfl, rfl⟩ := nlLines_unique (fun l hl => hA l (by simp [hl])) (fun l hl => hB l (by simp [hl]))
      (by simpa using hl) hx hy h''
    exact ⟨rfl, rfl⟩

theorem nlLines_split (s : Text) : nlLines (splitLines s) = '\n' :: s := by
  obtain ⟨l, ls, h⟩ := List.exists_cons_of_ne_nil (splitLines_ne s)
  have := joinLines_splitLines s
  rw [h, joinLines_cons] at this
  rw [h]
  show '\n' :: l ++ _ = _
  rw [List.cons_append]
  exact congrArg _ this

/-! ### One node -/

/-- The first line of a text. -/
def firstLine (x : Text) : Text := x.takeWhile (· != '\n')

/-- What follows the first line. -/
def afterLine (x : Text) : Text := x.dropWhile (· != '\n')

theorem firstLine_append {a : Text} (h : '\n' ∉ a) (x : Text) : firstLine (a ++ x) = a ++ firstLine x := by
  unfold firstLine
  rw [List.takeWhile_append_of_pos]
  intro c hc
  have : c ≠ '\n' := fun e => h (e ▸ hc)
  simpa using this

theorem afterLine_append {a : Text} (h : '\n' ∉ a) (x : Text) : afterLine (a ++ x) = afterLine x := by
  unfold afterLine
  rw [List.dropWhile_append_of_pos]
  intro c hc
  have : c ≠ '\n' := fun e => h (e ▸ hc)
  simpa using this

theorem firstLine_nl (x : Text) : firstLine ('\n' :: x) = [] := by simp [firstLine]

theorem afterLine_nl (x : Text) : afterLine ('\n' :: x) = '\n' :: x := by simp [afterLine]

/-- Cuts: not empty, a newline only at the end. -/
def Cut (cs : List Text) : Prop := ∀ c ∈ cs, ('\n' ∉ c ∧ c ≠ []) ∨ ∃ a, c = a ++ ['\n'] ∧ '\n' ∉ a

theorem cut_cuts : ∀ s : Text, Cut (cuts s)
  | [] => by intro c h; simp [cuts] at h
  | c :: s => by
    have ih := cut_cuts s
    intro d hd
    unfold cuts at hd
    split at hd
    · rcases List.mem_cons.1 hd with rfl | hd
      · exact .inr ⟨[], rfl, by simp⟩
      · exact ih d hd
    · rename_i hc
      cases hs : cuts s with
      | nil =>
        rw [hs] at hd; simp at hd; subst hd
        exact .inl ⟨by simp [Ne.symm hc], by simp⟩
      | cons l ls =>
        rw [hs] at hd ih
        rcases List.mem_cons.1 hd with rfl | hd
        · rcases ih l (by simp) with ⟨h, _⟩ | ⟨a, rfl, ha⟩
          · exact .inl ⟨by simp [h, Ne.symm hc], by simp⟩
          · exact .inr ⟨c :: a, rfl, by simp [ha, Ne.symm hc]⟩
        · exact ih d (by simp [hd])

theorem Cut.append {A B : List Text} (hA : Cut A) (hB : Cut B) : Cut (A ++ B) := by
  intro c hc
  rcases List.mem_append.1 hc with h | h
  · exact hA c h
  · exact hB c h

theorem cut_flatMap : ∀ cs : List Text, Cut (cs.flatMap cuts)
  | [] => by intro c h; simp at h
  | c :: cs => by rw [List.flatMap_cons]; exact (cut_cuts c).append (cut_flatMap cs)

theorem Cut.tail {c : Text} {cs : List Text} (h : Cut (c :: cs)) : Cut cs := fun d hd => h d (by simp [hd])

theorem firstLine_body (path : List Bool) : ∀ (cs : List Text) (first : Bool), Cut cs →
    firstLine (body path false first cs) = firstLine cs.flatten
  | [], _, _ => rfl
  | c :: cs, first, h => by
    rw [body, List.flatten_cons]
    rcases h c (by simp) with ⟨hc, _⟩ | ⟨a, rfl, ha⟩
    · rw [endsLine_line hc]
      simp only [Bool.false_eq_true, if_false, List.nil_append]
      rw [firstLine_append hc, firstLine_append hc, firstLine_body path cs _ h.tail]
    · simp only [Bool.false_eq_true, if_false, List.nil_append, List.append_assoc, List.singleton_append]
      rw [firstLine_append ha, firstLine_append ha, firstLine_nl, firstLine_nl]

theorem firstLine_start (path : List Bool) (c : Text) (cs : List Text) (first : Bool) (h : Cut (c :: cs)) :
    firstLine (body path true first (c :: cs)) = margin path first (endsLine c) ++ firstLine (c :: cs).flatten := by
  have := firstLine_body path (c :: cs) first h
  rw [body] at this ⊢
  simp only [Bool.false_eq_true, if_false, if_true, List.nil_append] at this ⊢
  rw [List.append_assoc, firstLine_append (margin_nl _ _ _), this]

theorem afterLine_body (path : List Bool) : ∀ (cs : List Text) (b first : Bool), Cut cs → '\n' ∈ cs.flatten →
    ∃ cs', Cut cs' ∧ afterLine cs.flatten = '\n' :: cs'.flatten ∧
      afterLine (body path b first cs) = '\n' :: body path true false cs'
  | [], _, _, _, h => by simp at h
  | c :: cs, b, first, h, hn => by
    rw [body, List.flatten_cons]
    have hm : '\n' ∉ (if b then margin path first (endsLine c) else []) := by
      cases b
      · simp
      · exact margin_nl _ _ _
    rw [List.append_assoc, afterLine_append hm]
    rcases h c (by simp) with ⟨hc, _⟩ | ⟨a, rfl, ha⟩
    · rw [endsLine_line hc, afterLine_append hc, afterLine_append hc]
      rw [List.flatten_cons, List.mem_append] at hn
      exact afterLine_body path cs _ _ h.tail (hn.resolve_left hc)
    · refine ⟨cs, h.tail, ?_, ?_⟩
      · simp only [List.append_assoc, List.singleton_append]
        rw [afterLine_append ha, afterLine_nl]
      · rw [endsLine_nl]
        simp only [List.append_assoc, List.singleton_append]
        rw [afterLine_append ha, afterLine_nl]; simp

theorem splitLines_nl_append : ∀ {a : Text} (r : Text), '\n' ∉ a → splitLines (a ++ '\n' :: r) = a :: splitLines r
  | [], r, _ => by simp [splitLines]
  | c :: a, r, h => by
    rw [List.mem_cons, not_or] at h
    rw [List.cons_append, splitLines, if_neg (fun e => h.1 e.symm), splitLines_nl_append r h.2]

theorem splitLines_line : ∀ {a : Text}, '\n' ∉ a → splitLines a = [a]
  | [], _ => rfl
  | c :: a, h => by
    rw [List.mem_cons, not_or] at h
    rw [splitLines, if_neg (fun e => h.1 e.symm), splitLines_line h.2]

theorem firstLine_joinLines {F p : Text} (hF : '\n' ∉ F) (s : Text) :
    firstLine (joinLines (indent F p (splitLines s))) = F ++ firstLine s := by
  by_cases hn : '\n' ∈ s
  · obtain ⟨a, r, rfl, ha⟩ := split_nl hn
    rw [splitLines_nl_append r ha, indent, joinLines_cons, List.append_assoc, firstLine_append hF, firstLine_append ha,
      firstLine_append ha, firstLine_nl]
    obtain ⟨l, ls, h⟩ := List.exists_cons_of_ne_nil (splitLines_ne r)
    rw [h]
    simp [firstLine_nl]
  · rw [splitLines_line hn]
    simp only [indent, List.map_nil, joinLines]
    rw [firstLine_append hF]

theorem afterLine_joinLines {F p : Text} (hF : '\n' ∉ F) {s r : Text} (h : afterLine s = '\n' :: r) :
    afterLine (joinLines (indent F p (splitLines s))) = '\n' :: joinLines (indent p p (splitLines r)) := by
  by_cases hn : '\n' ∈ s
  · obtain ⟨a, r', rfl, ha⟩ := split_nl hn
    rw [afterLine_append ha, afterLine_nl] at h
    have : r' = r := by simpa using h
    subst this
    rw [splitLines_nl_append _ ha, indent, joinLines_cons, List.append_assoc, afterLine_append hF, afterLine_append ha]
    obtain ⟨l, ls, hl⟩ := List.exists_cons_of_ne_nil (splitLines_ne r')
    rw [hl]
    simp [indent, joinLines_cons, afterLine_nl, List.flatMap_map]
  · have : afterLine s = [] := by
      have := afterLine_append hn []
      simpa [afterLine] using this
    rw [this] at h; simp at h

theorem length_bars (l : List Bool) : (l.flatMap bar).length = 4 * l.length := by
  induction l with
  | nil => rfl
  | cons b l ih => rw [List.flatMap_cons, List.length_append, ih]; cases b <;> simp [bar] <;> omega

theorem length_margin_first (p : List Bool) (b : Bool) :
    (margin (p ++ [b]) true true).length ≠ (margin1 (p ++ [b])).length := by
  cases b <;> simp [margin, margin1, length_bars]

theorem length_margin_rest {p : List Bool} (hp : p ≠ []) (nl : Bool) :
    (margin (p ++ [true]) false nl).length < (margin2 (p ++ [true])).length := by
  have h0 : 0 < p.length := List.length_pos_of_ne_nil hp
  unfold margin margin2
  rw [length_bars]
  simp only [List.reverse_append, List.reverse_singleton, List.singleton_append, Bool.false_eq_true, if_false, if_true,
    List.length_append, List.length_singleton]
  split
  · simp; omega
  · rename_i b up h
    have : (b :: up).length ≤ p.length := by
      rw [← h, ← List.length_reverse (as := p)]
      exact (List.dropWhile_sublist _).length_le
    rw [List.length_append, length_bars, List.length_reverse]
    simp at this ⊢; omega

theorem getLast?_body (path : List Bool) : ∀ (cs : List Text) (b first : Bool), Cut cs → cs ≠ [] →
    (body path b first cs).getLast? = cs.flatten.getLast?
  | [], _, _, _, h => absurd rfl h
  | [c], b, first, h, _ => by
    have hc : c ≠ [] := by
      rcases h c (by simp) with ⟨_, h⟩ | ⟨a, rfl, _⟩
      · exact h
      · simp
    simp only [body, List.append_nil, List.flatten_cons, List.flatten_nil]
    rw [List.getLast?_append_of_ne_nil _ hc]
  | c :: d :: cs, b, first, h, _ => by
    have ih := getLast?_body path (d :: cs) (endsLine c) (first && !endsLine c) h.tail (by simp)
    have hd : d ≠ [] := by
      rcases h d (by simp) with ⟨_, h⟩ | ⟨a, rfl, _⟩
      · exact h
      · simp
    have h1 : (d :: cs).flatten ≠ [] := by simp [hd]
    have h2 : body path (endsLine c) (first && !endsLine c) (d :: cs) ≠ [] := by simp [body, hd]
    rw [body, List.getLast?_append_of_ne_nil _ h2, ih, List.flatten_cons (l := c), List.getLast?_append_of_ne_nil _ h1]

theorem flatten_eq_nil_cut {cs : List Text} (h : Cut cs) : cs.flatten = [] → cs = [] := by
  intro e
  cases cs with
  | nil => rfl
  | cons c cs =>
    exfalso
    simp only [List.flatten_cons, List.append_eq_nil_iff] at e
    rcases h c (by simp) with ⟨_, h⟩ | ⟨a, rfl, _⟩
    · exact h e.1
    · simp at e

theorem margin2_last (p : List Bool) (b : Bool) : ∃ x, margin2 (p ++ [b]) = x ++ [' '] := by
  rw [margin2_snoc]
  cases b
  · exact ⟨margin2 p ++ ['|', ' ', ' '], by simp [bar]⟩
  · exact ⟨margin2 p ++ [' ', ' ', ' '], by simp [bar]⟩

/-- The last line of the picture of a text that ends with a newline is a margin. -/
theorem getLast?_nl (F p s : Text) (h : s.getLast? = some '\n') :
    ∃ x, joinLines (indent F p (splitLines s)) = x ++ '\n' :: p := by
  obtain ⟨a, rfl⟩ : ∃ a, s = a ++ ['\n'] := by
    rcases s.eq_nil_or_concat with rfl | ⟨a, c, rfl⟩
    · simp at h
    · simp at h; subst h; exact ⟨a, by simp⟩
  clear h
  induction hk : a.count '\n' generalizing a F with
  | zero =>
    have ha : '\n' ∉ a := List.count_eq_zero.1 hk
    rw [splitLines_nl_append [] ha]
    exact ⟨F ++ a, by simp [splitLines, indent, joinLines]⟩
  | succ n ih =>
    have ha : '\n' ∈ a := List.count_pos_iff.1 (by omega)
    obtain ⟨b, r, rfl, hb⟩ := split_nl ha
    have hc : r.count '\n' = n := by
      rw [List.count_append, List.count_cons_self, count_zero hb] at hk; omega
    obtain ⟨x, hx⟩ := ih p r hc
    have he : b ++ '\n' :: r ++ ['\n'] = b ++ '\n' :: (r ++ ['\n']) := by simp
    rw [he, splitLines_nl_append _ hb]
    refine ⟨F ++ b ++ '\n' :: x, ?_⟩
    obtain ⟨l, ls, hl⟩ := List.exists_cons_of_ne_nil (splitLines_ne (r ++ ['\n']))
    rw [hl] at hx ⊢
    simp only [indent, List.map_cons, joinLines, List.append_assoc] at hx ⊢
    rw [hx]; simp

theorem head_filter : ∀ (cs : List Text), cs.flatMap cuts ≠ [] →
    ∃ c cs' d ds, cs.filter (fun c => !c.isEmpty) = c :: cs' ∧ cs.flatMap cuts = d :: ds ∧
      ('\n' ∈ c → endsLine d = true)
  | [], h => by simp at h
  | [] :: cs, h => by
    obtain ⟨c, cs', d, ds, h1, h2, h3⟩ := head_filter cs (by simpa [cuts] using h)
    exact ⟨c, cs', d, ds, by simpa using h1, by simpa [cuts] using h2, h3⟩
  | (x :: xs) :: cs, _ => by
    by_cases hn : '\n' ∈ x :: xs
    · obtain ⟨a, r, hs, ha⟩ := split_nl hn
      refine ⟨x :: xs, cs.filter (fun c => !c.isEmpty), a ++ ['\n'], cuts r ++ cs.flatMap cuts, by simp, ?_,
        fun _ => endsLine_nl a⟩
      rw [List.flatMap_cons, hs, cuts_nl r ha, List.cons_append]
    · exact ⟨x :: xs, cs.filter (fun c => !c.isEmpty), x :: xs, cs.flatMap cuts, by simp, by
        rw [List.flatMap_cons, cuts_line (by simp) hn]; rfl, fun h => absurd h hn⟩

theorem okText_of_body {p : List Bool} {last : Bool} {cs : List Text}
    (h : body (p ++ [last]) true true (cs.flatMap cuts) =
      joinLines (indent (margin1 (p ++ [last])) (margin2 (p ++ [last])) (splitLines cs.flatten))) :
    OkText (p.length + 1) last cs := by
  have hcut := cut_flatMap cs
  have hfl := flatten_flatMap_cuts cs
  have hne : cs.flatMap cuts ≠ [] := by
    intro e
    rw [e] at h hfl
    rw [← hfl] at h
    have := congrArg List.length h
    cases last <;> simp [body, splitLines, indent, joinLines, margin1_snoc] at this
  obtain ⟨c, cs', d, ds, h1, h2, h3⟩ := head_filter cs hne
  -- the first line
  have hfirst := congrArg firstLine h
  rw [h2] at hcut hfl
  rw [firstLine_joinLines (margin1_nl _), h2, firstLine_start _ _ _ _ hcut, hfl] at hfirst
  have hlen := congrArg List.length hfirst
  simp only [List.length_append] at hlen
  have hd : endsLine d = false := by
    cases he : endsLine d with
    | false => rfl
    | true => rw [he] at hlen; exact absurd (by omega) (length_margin_first p last)
  have hcn : '\n' ∉ c := fun hc => by rw [h3 hc] at hd; simp at hd
  -- the text does not end with a newline
  have hfill : Filled cs.flatten := by
    cases hl : cs.flatten.getLast? with
    | none =>
      simp only [List.getLast?_eq_none_iff] at hl
      rw [hl] at hfl
      exact absurd (flatten_eq_nil_cut hcut hfl) (by simp)
    | some e =>
      refine ⟨e, hl, fun he => ?_⟩
      subst he
      obtain ⟨x, hx⟩ := getLast?_nl (margin1 (p ++ [last])) (margin2 (p ++ [last])) _ hl
      obtain ⟨y, hy⟩ := margin2_last p last
      rw [hx, hy] at h
      have := congrArg List.getLast? h
      rw [h2, getLast?_body _ _ _ _ hcut (by simp), hfl, hl,
        show x ++ '\n' :: (y ++ [' ']) = (x ++ '\n' :: y) ++ [' '] by simp, List.getLast?_concat] at this
      exact absurd this (by decide)
  by_cases hn : '\n' ∈ cs.flatten
  · refine .inr ⟨hfill, ⟨c, cs', h1, hcn⟩, ?_⟩
    cases last with
    | false => exact .inl rfl
    | true =>
      right
      by_cases hp : p = []
      · subst hp; rfl
      · exfalso
        rw [h2] at h
        obtain ⟨es, he1, he2, he3⟩ := afterLine_body (p ++ [true]) (d :: ds) true true hcut (by rw [hfl]; exact hn)
        rw [hfl] at he2
        have hafter := congrArg afterLine h
        rw [he3, afterLine_joinLines (margin1_nl _) he2] at hafter
        have hafter : body (p ++ [true]) true false es =
            joinLines (indent (margin2 (p ++ [true])) (margin2 (p ++ [true])) (splitLines es.flatten)) := by
          simpa using hafter
        cases es with
        | nil =>
          have := congrArg List.length hafter
          have hl2 : (margin2 (p ++ [true])).length = 4 * (p.length + 1) := by simp only [margin2, length_bars]; simp
          simp only [body, splitLines, indent, joinLines, List.flatten_nil, List.map_nil, List.append_nil, List.length_nil,
            hl2] at this
          omega
        | cons e es =>
          have hl := congrArg firstLine hafter
          rw [firstLine_joinLines (F := margin2 (p ++ [true])) (bars_nl (p ++ [true])), firstLine_start _ _ _ _ he1] at hl
          have hl := congrArg List.length hl
          simp only [List.length_append] at hl
          have := length_margin_rest hp (endsLine e)
          omega
  · refine .inl ⟨?_, hn⟩
    intro e
    rw [e] at hfl
    exact absurd (flatten_eq_nil_cut hcut hfl) (by simp)

/-! ### All nodes -/

/-- The number of newlines of the picture of the nodes, each line being preceded by one. -/
def total : List (List Bool × List Text) → Nat
  | [] => 0
  | n :: N => n.2.flatten.count '\n' + 1 + total N

theorem count_sheet : ∀ (N : List (List Bool × List Text)) (opn : Bool),
    (sheet opn N).count '\n' ≤ total N ∧ ((sheet opn N).count '\n' = total N → N ≠ [] → opn = true)
  | [], _ => ⟨by simp [sheet, total], fun _ h => absurd rfl h⟩
  | (p, cs) :: N, opn => by
    have ih := (count_sheet N (leaves cs)).1
    have hb := count_body p (cs.flatMap cuts) true true
    rw [flatten_flatMap_cuts] at hb
    rw [sheet, List.count_append, List.count_append, hb]
    simp only [total]
    cases opn with
    | true =>
      have h1 : List.count '\n' (if true = true then ['\n'] else []) = 1 := rfl
      rw [h1]
      exact ⟨by omega, fun _ _ => rfl⟩
    | false =>
      simp only [Bool.false_eq_true, if_false, List.count_nil]
      exact ⟨by omega, fun h _ => by omega⟩

theorem count_pic (N : List (List Bool × List Text)) :
    (nlLines (N.flatMap nodeLines)).count '\n' = total N := by
  rw [count_nlLines _ fun l hl => by
    obtain ⟨n, _, hn⟩ := List.mem_flatMap.1 hl
    exact nodeLines_nl n l hn]
  induction N with
  | nil => rfl
  | cons n N ih => rw [List.flatMap_cons, List.length_append, length_nodeLines, ih, total]

theorem sheet_head : ∀ (N : List (List Bool × List Text)), sheet true N = [] ∨ ∃ u, sheet true N = '\n' :: u
  | [] => .inl rfl
  | (p, cs) :: N => .inr ⟨_, rfl⟩

theorem nlLines_sheet (N : List (List Bool × List Text)) :
    nlLines (N.flatMap nodeLines) = [] ∨ ∃ u, nlLines (N.flatMap nodeLines) = '\n' :: u := by
  have := nlLines_head (N.flatMap nodeLines) [] (.inl rfl)
  simpa using this

theorem sheet_nodes : ∀ (N : List (List Bool × List Text)), sheet true N = nlLines (N.flatMap nodeLines) →
    ∀ n ∈ N, body n.1 true true (n.2.flatMap cuts) = joinLines (nodeLines n)
  | [], _, n, hn => by simp at hn
  | (p, cs) :: N, h, n, hn => by
    have hc := congrArg (List.count '\n') h
    rw [count_pic] at hc
    have hb := count_body p (cs.flatMap cuts) true true
    rw [flatten_flatMap_cuts] at hb
    -- the line is not empty if a node follows
    have hop : sheet (leaves cs) N = sheet true N := by
      cases N with
      | nil => rfl
      | cons m N =>
        have := (count_sheet (m :: N) (leaves cs)).2 (by
          rw [sheet, List.count_append, List.count_append, hb] at hc
          have h1 : List.count '\n' (if true = true then ['\n'] else []) = 1 := rfl
          rw [h1] at hc
          simp only [total] at hc ⊢
          omega) (by simp)
        rw [this]
    rw [sheet, hop, List.flatMap_cons, nlLines_append] at h
    simp only [if_true, List.singleton_append] at h
    rw [← nlLines_split] at h
    obtain ⟨h1, h2⟩ := nlLines_unique (splitLines_nl _) (nodeLines_nl (p, cs)) (by
      rw [length_splitLines, hb, length_nodeLines]) (sheet_head N) (nlLines_sheet N) h
    rcases List.mem_cons.1 hn with rfl | hn
    · rw [← h1, joinLines_splitLines]
    · exact sheet_nodes N h2 n hn

mutual
theorem ok_of_nodes : ∀ (t : Tree (List Text)) (p : List Bool) (last : Bool),
    (∀ n ∈ nodes (p ++ [last]) t, body n.1 true true (n.2.flatMap cuts) = joinLines (nodeLines n)) →
    Ok (p.length + 1) last t
  | .node cs ts, p, last, h => by
    refine ⟨okText_of_body (h (p ++ [last], cs) (by simp [nodes])), ?_⟩
    have := okL_of_nodes ts (p ++ [last]) fun n hn => h n (by simp [nodes, hn])
    simpa using this
theorem okL_of_nodes : ∀ (ts : List (Tree (List Text))) (p : List Bool),
    (∀ n ∈ nodesL p ts, body n.1 true true (n.2.flatMap cuts) = joinLines (nodeLines n)) →
    OkL (p.length + 1) ts
  | [], _, _ => trivial
  | t :: ts, p, h => ⟨ok_of_nodes t p ts.isEmpty fun n hn => h n (by simp [nodesL, hn]),
      okL_of_nodes ts p fun n hn => h n (by simp [nodesL, hn])⟩
end

theorem print_leaf (cs : List Text) : Printed.print (.node cs []) = cs.flatten := by
  simp [Printed.print, nodes, nodesL, sheet, body_root, flatten_flatMap_cuts]

theorem render_leaf (a : Text) : render (.node a []) = a := by
  simp [render, lines, linesL, joinLines_splitLines]

/-- The printed text is the picture only in the cases listed. -/
theorem okTree_of_print {t : Tree (List Text)} (h : Printed.print t = render (t.map List.flatten)) :
    t.subs = [] ∨ OkTree t := by
  cases t with
  | node cs ts =>
    cases hts : ts with
    | nil => exact .inl rfl
    | cons t' ts' =>
      right
      rw [← hts]
      rw [render_nodes, Printed.print, nodes, sheet, body_root, flatten_flatMap_cuts, List.flatMap_cons] at h
      have hroot : nodeLines ([], cs) = splitLines cs.flatten := by
        show indent [] [] _ = _
        rw [indent_nil]
      rw [hroot] at h
      have hj : joinLines (splitLines cs.flatten ++ (nodesL [] ts).flatMap nodeLines) =
          cs.flatten ++ nlLines ((nodesL [] ts).flatMap nodeLines) := by
        obtain ⟨l, ls, hl⟩ := List.exists_cons_of_ne_nil (splitLines_ne cs.flatten)
        have := joinLines_splitLines cs.flatten
        rw [hl, joinLines_cons] at this
        rw [hl, List.cons_append, joinLines_cons, List.flatMap_append, ← List.append_assoc, this]
        rfl
      rw [hj] at h
      simp only [Bool.false_eq_true, if_false, List.nil_append] at h
      have h' : sheet (leaves cs) (nodesL [] ts) = nlLines ((nodesL [] ts).flatMap nodeLines) :=
        List.append_cancel_left h
      have hne : nodesL [] ts ≠ [] := by
        rw [hts]
        cases t'
        simp [nodesL, nodes]
      have hlv := (count_sheet (nodesL [] ts) (leaves cs)).2 (by rw [h', count_pic]) hne
      rw [hlv] at h'
      refine ⟨?_, ?_⟩
      · unfold leaves at hlv
        show Filled cs.flatten
        cases hl : cs.flatten.getLast? with
        | none => rw [hl] at hlv; simp at hlv
        | some c => rw [hl] at hlv; exact ⟨c, hl, by simpa using hlv⟩
      · exact okL_of_nodes ts [] (sheet_nodes _ h')

end DebugPrint
end Treena
