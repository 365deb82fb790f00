import Verif.Proof.Dump
/-! The data can be read back from `{:?}` and `{:#?}`: lemmas for `Props/Dump.lean`. -/
set_option autoImplicit false

namespace Treena
namespace Dump

/-! ### Indentation -/

/-- A line begins at the end of the text, `b` saying whether one begins at its start. -/
def Closed : Bool → Text → Prop
  | b, [] => b = true
  | _, c :: cs => Closed (c == '\n') cs

theorem indentFrom_cancel : ∀ (u v : Text) (b : Bool) (X Y : Text), Closed b u → Closed b v →
    (∀ t, X ≠ "    ".toList ++ t) → (∀ t, Y ≠ "    ".toList ++ t) →
    indentFrom b u ++ X = indentFrom b v ++ Y → u = v ∧ X = Y
  | [], [], _, _, _, _, _, _, _, h => ⟨rfl, h⟩
  | [], c :: v, b, X, Y, hu, _, hX, _, h => by
    have hb : b = true := hu
    subst hb
    simp only [indentFrom, if_true, List.nil_append, List.append_assoc] at h
    exact absurd h (hX _)
  | c :: u, [], b, X, Y, _, hv, _, hY, h => by
    have hb : b = true := hv
    subst hb
    simp only [indentFrom, if_true, List.nil_append, List.append_assoc] at h
    exact absurd h.symm (hY _)
  | c :: u, d :: v, b, X, Y, hu, hv, hX, hY, h => by
    simp only [indentFrom, List.append_assoc, List.append_cancel_left_eq, List.cons_append, List.cons.injEq] at h
    obtain ⟨rfl, h⟩ := h
    obtain ⟨rfl, h'⟩ := indentFrom_cancel u v (c == '\n') X Y hu hv hX hY h
    exact ⟨rfl, h'⟩

theorem closed_append : ∀ (b : Bool) (u v : Text), (∀ b', Closed b' v) → Closed b (u ++ v)
  | b, [], v, h => h b
  | _, c :: u, v, h => closed_append (c == '\n') u v h

theorem closed_newline (b : Bool) (u : Text) : Closed b (u ++ ",\n".toList) := closed_append b u _ fun _ => rfl

theorem indentFrom_append : ∀ (b : Bool) (u v : Text), Closed b u → indentFrom b (u ++ v) = indentFrom b u ++ indent v
  | b, [], v, h => by
    have hb : b = true := h
    subst hb; rfl
  | b, c :: u, v, h => by
    simp only [List.cons_append, indentFrom, List.append_assoc]
    rw [indentFrom_append (c == '\n') u v h]

theorem indent_cancel {u v X Y : Text} (hX : X.head? ≠ some ' ') (hY : Y.head? ≠ some ' ')
    (h : indent (u ++ ",\n".toList) ++ X = indent (v ++ ",\n".toList) ++ Y) : u = v ∧ X = Y := by
  have h1 : ∀ {Z : Text}, Z.head? ≠ some ' ' → ∀ t, Z ≠ "    ".toList ++ t := by
    rintro Z hZ t rfl; exact hZ rfl
  obtain ⟨h2, h3⟩ := indentFrom_cancel _ _ true X Y (closed_newline _ u) (closed_newline _ v) (h1 hX) (h1 hY) h
  exact ⟨List.append_cancel_right h2, h3⟩

/-! ### `{:#?}` -/

/-- The entries of a list, before indentation. -/
def rows (ts : List Text) : Text := ts.flatMap fun t => t ++ ",\n".toList

theorem rows_closed : ∀ ts : List Text, ∀ b, (ts = [] → b = true) → Closed b (rows ts)
  | [], _, h => h rfl
  | t :: ts, b, _ => by
    rw [show rows (t :: ts) = (t ++ ",\n".toList) ++ rows ts from rfl, List.append_assoc]
    have h : ∀ b', Closed b' (",\n".toList ++ rows ts) := fun b' => by
      show Closed ('\n' == '\n') (rows ts)
      exact rows_closed ts _ fun _ => rfl
    exact closed_append b t _ h

theorem indent_rows : ∀ ts : List Text, indent (rows ts) = entries true ts
  | [] => rfl
  | t :: ts => by
    rw [show rows (t :: ts) = (t ++ ",\n".toList) ++ rows ts from rfl]
    unfold indent
    rw [indentFrom_append _ _ _ (closed_newline _ t), indent_rows ts]
    simp [entries, indent]

theorem list_alt_cons (t : Text) (ts : List Text) : list true (t :: ts) = "[\n".toList ++ (indent (rows (t :: ts)) ++ "]".toList) := by
  rw [indent_rows]
  simp [list, entries]

theorem rows_inj {l m : List Text} (h : list true l = list true m) : rows l = rows m := by
  cases l with
  | nil =>
    cases m with
    | nil => rfl
    | cons b m =>
      rw [list_alt_cons] at h
      simp [list] at h
  | cons a l =>
    cases m with
    | nil =>
      rw [list_alt_cons] at h
      simp [list] at h
    | cons b m =>
      rw [list_alt_cons, list_alt_cons, List.append_cancel_left_eq] at h
      refine (indentFrom_cancel _ _ true _ _ (rows_closed _ _ fun _ => rfl) (rows_closed _ _ fun _ => rfl) ?_ ?_ h).1
      · intro t e; exact absurd (congrArg List.head? e) (by simp)
      · intro t e; exact absurd (congrArg List.head? e) (by simp)

variable {T : Type}

theorem opt_alt_cancel {dbg : T → Text} (hd : Function.Injective dbg) (o o' : Option T) (s t : Text)
    (h : opt true (o.map dbg) ++ ",\n".toList ++ s = opt true (o'.map dbg) ++ ",\n".toList ++ t) : o = o' ∧ s = t := by
  cases o with
  | none =>
    cases o' with
    | none => exact ⟨rfl, by simpa using h⟩
    | some d => simp [opt] at h
  | some c =>
    cases o' with
    | none => simp [opt] at h
    | some d =>
      simp only [Option.map_some, opt, if_true, List.append_assoc, List.append_cancel_left_eq, List.cons_append,
        List.cons.injEq, true_and] at h
      obtain ⟨h1, h2⟩ := indent_cancel (by simp) (by simp) h
      exact ⟨by rw [hd h1], by simpa using h2⟩

theorem rows_data {dbg : T → Text} (hd : Function.Injective dbg) : ∀ l m : List (Option T),
    rows (l.map fun o => opt true (o.map dbg)) = rows (m.map fun o => opt true (o.map dbg)) → l = m
  | [], [], _ => rfl
  | [], b :: m, h => by simp [rows] at h
  | a :: l, [], h => by simp [rows] at h
  | a :: l, b :: m, h => by
    obtain ⟨h1, h2⟩ := opt_alt_cancel hd a b _ _ h
    rw [h1, rows_data hd l m h2]

/-! ### `{:?}` -/

/-- The text of a datum can be told from what follows it in parentheses. -/
def SelfDelimiting (dbg : T → Text) : Prop :=
  ∀ (a b : T) (s t : Text), dbg a ++ ')' :: s = dbg b ++ ')' :: t → a = b ∧ s = t

theorem opt_code {dbg : T → Text} (hd : SelfDelimiting dbg) : Code fun o : Option T => opt false (o.map dbg) := by
  intro o o' s t h
  cases o with
  | none =>
    cases o' with
    | none => exact ⟨rfl, by simpa using h⟩
    | some d => simp [opt] at h
  | some c =>
    cases o' with
    | none => simp [opt] at h
    | some d =>
      have h' : dbg c ++ ')' :: s = dbg d ++ ')' :: t := by simpa [opt] using h
      obtain ⟨rfl, h2⟩ := hd c d s t h'
      exact ⟨rfl, h2⟩

theorem entries_plain {α : Type} {enc : α → Text} (hc : Code enc) : ∀ (l m : List α) (s t : Text),
    entries false (l.map enc) ++ ']' :: s = entries false (m.map enc) ++ ']' :: t → l = m
  | [], [], _, _, _ => rfl
  | [], b :: m, s, t, h => by simp [entries] at h
  | a :: l, [], s, t, h => by simp [entries] at h
  | a :: l, b :: m, s, t, h => by
    simp only [List.map_cons, entries, Bool.false_eq_true, if_false, List.append_assoc, List.append_cancel_left_eq] at h
    obtain ⟨rfl, h'⟩ := hc _ _ _ _ h
    rw [entries_plain hc l m s t h']

theorem list_plain {α : Type} {enc : α → Text} (hc : Code enc) (hb : ∀ a, (enc a).head? ≠ some ']') (hn : ∀ a, enc a ≠ []) (l m : List α) (s t : Text)
    (h : list false (l.map enc) ++ s = list false (m.map enc) ++ t) : l = m := by
  have key : ∀ a (l : List α) s t, list false ([].map enc) ++ s ≠ list false ((a :: l).map enc) ++ t := by
    intro a l s t h
    have hne := hn a
    have hh := hb a
    cases e : enc a with
    | nil => exact hne e
    | cons c cs =>
      rw [e] at hh
      have h2 := congrArg (fun l : Text => l.tail.head?) h
      simp [list, e] at h2
      exact hh (by simp [← h2])
  cases l with
  | nil =>
    cases m with
    | nil => rfl
    | cons b m => exact absurd h (key b m s t)
  | cons a l =>
    cases m with
    | nil => exact absurd h.symm (key a l t s)
    | cons b m =>
      have h' : enc a ++ (entries false (l.map enc) ++ ']' :: s) = enc b ++ (entries false (m.map enc) ++ ']' :: t) := by
        simpa [list] using h
      obtain ⟨rfl, h2⟩ := hc _ _ _ _ h'
      rw [entries_plain hc l m s t h2]

end Dump

variable {T : Type}

theorem Forest.dump_alt_data {dbg : Bool → T → Text} (hd : Function.Injective (dbg true)) {f g : Forest T}
    (h : f.dump true dbg = g.dump true dbg) : f.data = g.data := by
  have hh := Forest.dump_hier h
  unfold Forest.dump Dump.struct Dump.fields Dump.fields at h
  rw [hh] at h
  simp only [List.append_assoc, List.append_cancel_left_eq] at h
  simp only [Dump.field, if_true] at h
  have h2 := (Dump.indent_cancel (u := "data".toList ++ (": ".toList ++ Dump.list true _))
    (v := "data".toList ++ (": ".toList ++ Dump.list true _)) (X := "}".toList) (Y := "}".toList) (by simp) (by simp) (by simpa only [List.append_assoc, List.nil_append] using h)).1
  rw [List.append_cancel_left_eq, List.append_cancel_left_eq] at h2
  exact Dump.rows_data hd _ _ (Dump.rows_inj h2)

theorem Forest.dump_plain_data {dbg : Bool → T → Text} (hd : Dump.SelfDelimiting (dbg false)) {f g : Forest T}
    (h : f.dump false dbg = g.dump false dbg) : f.data = g.data := by
  have hh := Forest.dump_hier h
  unfold Forest.dump Dump.struct Dump.fields Dump.fields at h
  rw [hh] at h
  simp only [List.append_assoc, List.append_cancel_left_eq] at h
  simp only [Dump.field, Bool.false_eq_true, if_false, List.append_assoc, List.append_cancel_left_eq] at h
  refine Dump.list_plain (Dump.opt_code hd) (fun o => ?_) (fun o => ?_) _ _ _ _ h
  · cases o <;> simp [Dump.opt]
  · cases o <;> simp [Dump.opt]

end Treena
