import Mathlib.Data.Nat.Digits.Lemmas
import Verif.Model.Dump
/-! `{:?}` and `{:#?}` can be read back: lemmas for `Props/Dump.lean`. -/
set_option autoImplicit false

namespace Treena
namespace Dump

/-- Texts that can be told from one another at the beginning of a longer text. -/
def Code {α : Type} (enc : α → Text) : Prop :=
  ∀ (a b : α) (s t : Text), enc a ++ s = enc b ++ t → a = b ∧ s = t

/-! ### Numbers -/

theorem digit_lt {d : Nat} (h : d < 10) : (digit d).toNat = d + 48 := by
  have : ∀ d < 10, (digit d).toNat = d + 48 := by decide
  exact this d h

theorem decimal_chars {n : Nat} {c : Char} (h : c ∈ decimal n) : 48 ≤ c.toNat ∧ c.toNat < 58 := by
  unfold decimal at h
  split at h
  · simp only [List.mem_singleton] at h; subst h; decide
  · simp only [List.mem_map, List.mem_reverse] at h
    obtain ⟨d, hd, rfl⟩ := h
    have := Nat.digits_lt_base (b := 10) (by omega) hd
    rw [digit_lt this]; omega

theorem digit_inj {a b : Nat} (ha : a < 10) (hb : b < 10) (h : digit a = digit b) : a = b := by
  have := congrArg Char.toNat h
  rw [digit_lt ha, digit_lt hb] at this; omega

theorem map_digit_inj : ∀ (l m : List Nat), (∀ a ∈ l, a < 10) → (∀ a ∈ m, a < 10) → l.map digit = m.map digit → l = m
  | [], [], _, _, _ => rfl
  | [], _ :: _, _, _, h => by simp at h
  | _ :: _, [], _, _, h => by simp at h
  | a :: l, b :: m, hl, hm, h => by
    simp only [List.map_cons, List.cons.injEq] at h
    rw [digit_inj (hl a (.head _)) (hm b (.head _)) h.1,
      map_digit_inj l m (fun x hx => hl x (.tail _ hx)) (fun x hx => hm x (.tail _ hx)) h.2]

theorem decimal_inj {n m : Nat} (h : decimal n = decimal m) : n = m := by
  have hz : ∀ k, k ≠ 0 → ((Nat.digits 10 k).reverse).map digit ≠ ['0'] := by
    intro k hk e
    have : ((Nat.digits 10 k).reverse).map digit = [0].map digit := e
    have := map_digit_inj _ _ (fun a ha => Nat.digits_lt_base (by omega) (List.mem_reverse.1 ha)) (by simp) this
    have h2 : Nat.digits 10 k = [0] := by simpa using congrArg List.reverse this
    have := Nat.getLast_digit_ne_zero 10 hk
    simp [h2] at this
  unfold decimal at h
  split at h <;> split at h
  · omega
  · exact absurd h.symm (hz _ (by assumption))
  · exact absurd h (hz _ (by assumption))
  · have := map_digit_inj _ _ (fun a ha => Nat.digits_lt_base (by omega) (List.mem_reverse.1 ha))
      (fun a ha => Nat.digits_lt_base (by omega) (List.mem_reverse.1 ha)) h
    exact Nat.digits_inj_iff.1 (List.reverse_injective this)

/-- Split at the first character that is not in the two parts. -/
theorem split_at {c : Char} : ∀ {l m s t : Text}, c ∉ l → c ∉ m → l ++ c :: s = m ++ c :: t → l = m ∧ s = t
  | [], [], _, _, _, _, h => ⟨rfl, by simpa using h⟩
  | [], b :: m, _, _, _, hm, h => by simp at h; simp [h.1] at hm
  | a :: l, [], _, _, hl, _, h => by simp at h; simp [h.1] at hl
  | a :: l, b :: m, _, _, hl, hm, h => by
    simp only [List.cons_append, List.cons.injEq] at h
    have := split_at (fun x => hl (.tail _ x)) (fun x => hm (.tail _ x)) h.2
    exact ⟨by rw [h.1, this.1], this.2⟩

theorem not_in_decimal {c : Char} (hc : c.toNat < 48 ∨ 58 ≤ c.toNat) (n : Nat) : c ∉ decimal n := fun h => by
  have := decimal_chars h; omega

theorem id_code : Code id := by
  intro a b s t h
  unfold id at h
  simp only [List.append_assoc, List.append_cancel_left_eq] at h
  have h : decimal a ++ ')' :: s = decimal b ++ ')' :: t := by simpa using h
  have hp : ∀ n, ')' ∉ decimal n := fun n => not_in_decimal (c := ')') (.inl (by decide)) n
  obtain ⟨h1, h2⟩ := split_at (hp a) (hp b) h
  exact ⟨decimal_inj h1, h2⟩

theorem optId_code : Code optId := by
  have key : ∀ n (s t : Text), optId none ++ s ≠ optId (some n) ++ t := by
    intro n s t h
    have e : optId (some n) = 'N' :: 'o' :: 'd' :: 'e' :: 'I' :: 'd' :: '(' :: (decimal n ++ [')']) := rfl
    rw [e, show optId none = ['N', 'o', 'n', 'e'] from rfl] at h
    simp only [List.cons_append, List.cons.injEq] at h
    exact absurd h.2.2.1 (by decide)
  intro a b s t h
  cases a with
  | none =>
    cases b with
    | none => exact ⟨rfl, by simpa using h⟩
    | some n => exact absurd h (key n s t)
  | some m =>
    cases b with
    | none => exact absurd h.symm (key m t s)
    | some n =>
      obtain ⟨h1, h2⟩ := id_code m n s t h
      exact ⟨by rw [h1], h2⟩

/-! ### Without blanks and line breaks -/

/-- The text without blanks and line breaks. -/
def sq (t : Text) : Text := t.filter fun c => !(c == ' ' || c == '\n')

theorem sq_append (s t : Text) : sq (s ++ t) = sq s ++ sq t := List.filter_append ..

theorem sq_indentFrom : ∀ (b : Bool) (t : Text), sq (indentFrom b t) = sq t
  | _, [] => rfl
  | b, c :: cs => by
    have ih := sq_indentFrom (c == '\n') cs
    rw [indentFrom, sq_append]
    have e : sq (if b then "    ".toList else []) = [] := by cases b <;> rfl
    rw [e, List.nil_append]
    show sq ([c] ++ indentFrom (c == '\n') cs) = sq ([c] ++ cs)
    rw [sq_append, sq_append, ih]

theorem sq_indent (t : Text) : sq (indent t) = sq t := sq_indentFrom true t

theorem sq_decimal (n : Nat) : sq (decimal n) = decimal n := by
  unfold sq
  rw [List.filter_eq_self]
  intro c hc
  have := decimal_chars hc
  have h1 : c ≠ ' ' := fun e => by subst e; revert this; decide
  have h2 : c ≠ '\n' := fun e => by subst e; revert this; decide
  simp [h1, h2]

theorem sq_id (n : Nat) : sq (id n) = id n := by
  unfold id; rw [sq_append, sq_append, sq_decimal]; rfl

theorem sq_optId : ∀ o, sq (optId o) = optId o
  | none => rfl
  | some n => sq_id n

/-- A record without blanks and line breaks. -/
theorem sq_neighbors (alt : Bool) (nb : Neighbors) : sq (neighbors alt nb) =
    "Neighbors{parent:".toList ++ (optId nb.parent ++ (",prev_sibling_cyclic:".toList ++ (optId nb.prevCyc ++
      (",next_sibling:".toList ++ (optId nb.next ++ (",first_child:".toList ++ (optId nb.first ++
        (if alt then ",}".toList else "}".toList)))))))) := by
  cases alt <;>
    simp only [neighbors, struct, field, fields, if_true, if_false, sq_append, sq_indent, sq_optId, Bool.false_eq_true,
      List.append_assoc, List.nil_append, List.append_nil] <;> rfl

theorem neighbors_code (alt : Bool) : Code fun nb => sq (neighbors alt nb) := by
  intro a b s t h
  simp only [sq_neighbors, List.append_assoc, List.append_cancel_left_eq] at h
  obtain ⟨h1, h⟩ := optId_code _ _ _ _ h
  rw [List.append_cancel_left_eq] at h
  obtain ⟨h2, h⟩ := optId_code _ _ _ _ h
  rw [List.append_cancel_left_eq] at h
  obtain ⟨h3, h⟩ := optId_code _ _ _ _ h
  rw [List.append_cancel_left_eq] at h
  obtain ⟨h4, h⟩ := optId_code _ _ _ _ h
  rw [List.append_cancel_left_eq] at h
  refine ⟨?_, h⟩
  cases a; cases b; simp_all

/-! ### Lists -/

theorem entries_code {α : Type} {enc : α → Text} (hc : Code enc) (alt : Bool) (hb : ∀ a s t, enc a ++ s ≠ ']' :: t) :
    ∀ (l m : List α) (s t : Text),
      (l.flatMap fun a => if alt then enc a ++ [','] else ',' :: enc a) ++ ']' :: s =
        (m.flatMap fun a => if alt then enc a ++ [','] else ',' :: enc a) ++ ']' :: t → l = m ∧ s = t
  | [], [], _, _, h => ⟨rfl, by simpa using h⟩
  | [], b :: m, s, t, h => by
    cases alt with
    | false => simp at h
    | true =>
      simp only [List.flatMap_nil, List.nil_append, List.flatMap_cons, if_true, List.append_assoc] at h
      exact absurd h.symm (hb _ _ _)
  | a :: l, [], s, t, h => by
    cases alt with
    | false => simp at h
    | true =>
      simp only [List.flatMap_nil, List.nil_append, List.flatMap_cons, if_true, List.append_assoc] at h
      exact absurd h (hb _ _ _)
  | a :: l, b :: m, s, t, h => by
    have ih := entries_code hc alt hb l m s t
    cases alt with
    | false =>
      simp only [List.flatMap_cons, Bool.false_eq_true, if_false, List.append_assoc, List.cons_append, List.cons.injEq, true_and] at h ih
      obtain ⟨rfl, h'⟩ := hc _ _ _ _ h
      obtain ⟨rfl, h''⟩ := ih h'
      exact ⟨rfl, h''⟩
    | true =>
      simp only [List.flatMap_cons, if_true, List.append_assoc] at h ih
      obtain ⟨rfl, h'⟩ := hc _ _ _ _ h
      simp only [List.cons_append, List.nil_append, List.cons.injEq, true_and] at h'
      obtain ⟨rfl, h''⟩ := ih h'
      exact ⟨rfl, h''⟩

theorem sq_entries (alt : Bool) : ∀ ts : List Text,
    sq (entries alt ts) = ts.flatMap fun t => if alt then sq t ++ [','] else ',' :: sq t
  | [] => rfl
  | t :: ts => by
    rw [entries, sq_append, sq_entries alt ts, List.flatMap_cons]
    cases alt
    · simp only [Bool.false_eq_true, if_false, sq_append]; rfl
    · simp only [if_true, sq_indent, sq_append]; rfl

theorem sq_list (alt : Bool) (t : Text) (ts : List Text) : sq (list alt (t :: ts)) =
    '[' :: (if alt then sq t ++ [','] else sq t) ++ ((ts.flatMap fun t => if alt then sq t ++ [','] else ',' :: sq t) ++ [']']) := by
  rw [list, sq_append, sq_append, sq_entries, List.append_assoc]
  cases alt
  · rw [if_neg (by simp), if_neg (by simp)]
    have : sq ('[' :: t) = '[' :: sq t := rfl
    rw [this]; rfl
  · rw [if_pos rfl, if_pos rfl, sq_append, sq_indent, sq_append]; rfl

theorem list_code {α : Type} {enc : α → Text} (alt : Bool) (hc : Code fun a => sq (enc a))
    (hb : ∀ a s t, sq (enc a) ++ s ≠ ']' :: t) : Code fun l : List α => sq (list alt (l.map enc)) := by
  have key : ∀ a (l : List α) s t, sq (list alt ([].map enc)) ++ s ≠ sq (list alt ((a :: l).map enc)) ++ t := by
    intro a l s t h
    rw [List.map_cons, sq_list] at h
    have h' : ']' :: s = (if alt then sq (enc a) ++ [','] else sq (enc a)) ++
        (((l.map enc).flatMap fun t => if alt then sq t ++ [','] else ',' :: sq t) ++ [']'] ++ t) := by
      have e : sq (list alt ([].map enc)) ++ s = '[' :: ']' :: s := by cases alt <;> rfl
      rw [e] at h
      simpa using h
    cases alt with
    | false => exact hb _ _ _ h'.symm
    | true => rw [if_pos rfl, List.append_assoc] at h'; exact hb _ _ _ h'.symm
  intro l m s t h
  cases l with
  | nil =>
    cases m with
    | nil => exact ⟨rfl, by simpa using h⟩
    | cons b m => exact absurd h (key b m s t)
  | cons a l =>
    cases m with
    | nil => exact absurd h.symm (key a l t s)
    | cons b m =>
      simp only [List.map_cons, sq_list] at h
      have ih := entries_code hc alt hb l m s t
      simp only [List.cons_append, List.cons.injEq, true_and, List.append_assoc, List.flatMap_map, List.nil_append] at h
      cases alt with
      | false =>
        simp only [Bool.false_eq_true, if_false] at h ih
        obtain ⟨rfl, h'⟩ := hc _ _ _ _ h
        obtain ⟨rfl, h''⟩ := ih h'
        exact ⟨rfl, h''⟩
      | true =>
        simp only [if_true, List.append_assoc] at h ih
        obtain ⟨rfl, h'⟩ := hc _ _ _ _ h
        simp only [List.cons_append, List.nil_append, List.cons.injEq, true_and] at h'
        obtain ⟨rfl, h''⟩ := ih h'
        exact ⟨rfl, h''⟩

theorem neighbors_start (alt : Bool) (nb : Neighbors) (s t : Text) : sq (neighbors alt nb) ++ s ≠ ']' :: t := by
  intro h
  rw [sq_neighbors] at h
  have := congrArg List.head? h
  simp at this

theorem sq_hier (alt : Bool) (h : Hier) : sq (hier alt h) =
    "Hierarchy{neighbors:".toList ++ (sq (list alt (h.nbrs.map (neighbors alt))) ++ (if alt then ",}".toList else "}".toList)) := by
  cases alt <;>
    simp only [hier, struct, field, fields, if_true, if_false, sq_append, sq_indent, Bool.false_eq_true,
      List.append_assoc, List.nil_append, List.append_nil] <;> rfl

theorem hier_code (alt : Bool) : Code fun h => sq (hier alt h) := by
  intro a b s t h
  simp only [sq_hier, List.append_assoc, List.append_cancel_left_eq] at h
  obtain ⟨h1, h⟩ := list_code alt (neighbors_code alt) (neighbors_start alt) _ _ _ _ h
  rw [List.append_cancel_left_eq] at h
  refine ⟨?_, h⟩
  cases a; cases b; simp_all

end Dump

variable {T U : Type}

theorem Forest.sq_dump (alt : Bool) (dbg : Bool → T → Text) (f : Forest T) : Dump.sq (f.dump alt dbg) =
    "Forest{hierarchy:".toList ++ (Dump.sq (Dump.hier alt f.hier) ++ (",data:".toList ++
      (Dump.sq (Dump.list alt (f.data.map fun d => Dump.opt alt (d.map (dbg alt)))) ++
        (if alt then ",}".toList else "}".toList)))) := by
  cases alt <;>
    simp only [Forest.dump, Dump.struct, Dump.field, Dump.fields, if_true, if_false, Dump.sq_append, Dump.sq_indent, Bool.false_eq_true,
      List.append_assoc, List.nil_append, List.append_nil] <;> rfl

theorem Forest.dump_hier {alt : Bool} {dbg : Bool → T → Text} {dbg' : Bool → U → Text} {f : Forest T} {g : Forest U}
    (h : f.dump alt dbg = g.dump alt dbg') : f.hier = g.hier := by
  have := congrArg Dump.sq h
  rw [Forest.sq_dump, Forest.sq_dump, List.append_cancel_left_eq] at this
  exact (Dump.hier_code alt _ _ _ _ this).1

end Treena
