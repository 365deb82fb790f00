import Verif.Proof.Render
import Verif.Spec.Printed
/-! What `debug_print` prints, exactly. -/

set_option autoImplicit false

namespace Treena
namespace DebugPrint
open Render Printed

variable {S T α β : Type} {put : S → Text → Except S S}

theorem cuts_nl : ∀ {a : Text} (r : Text), '\n' ∉ a → cuts (a ++ '\n' :: r) = (a ++ ['\n']) :: cuts r
  | [], r, _ => by simp [cuts]
  | c :: cs, r, h => by
    rw [List.mem_cons, not_or] at h
    rw [List.cons_append, cuts, if_neg (fun e => h.1 e.symm), cuts_nl r h.2]
    rfl

theorem cuts_line : ∀ {s : Text}, s ≠ [] → '\n' ∉ s → cuts s = [s]
  | [], h, _ => absurd rfl h
  | c :: cs, _, h => by
    rw [List.mem_cons, not_or] at h
    rw [cuts, if_neg (fun e => h.1 e.symm)]
    cases cs with
    | nil => rfl
    | cons d ds => rw [cuts_line (by simp) h.2]

theorem endsLine_nl (a : Text) : endsLine (a ++ ['\n']) = true := by simp [endsLine]

theorem endsLine_line {s : Text} (h : '\n' ∉ s) : endsLine s = false := by
  unfold endsLine
  cases hl : s.getLast? with
  | none => rfl
  | some d =>
    have : d ∈ s := List.mem_of_getLast? hl
    have hd : d ≠ '\n' := fun e => h (e ▸ this)
    simpa using hd

/-- A level whose first line is over. -/
def off (b : Bool) : IndentLevel := ⟨b, false⟩

/-- The indents of a node. -/
def ind (pre : List Bool) (last first : Bool) : List IndentLevel := pre.map off ++ [⟨last, first⟩]

theorem clearLast_ind (pre : List Bool) (last first : Bool) : clearLast (ind pre last first) = ind pre last false := by
  unfold ind; rw [clearLast_append]

theorem clearLast_off (pre : List Bool) : clearLast (pre.map off) = pre.map off := by
  rcases pre.eq_nil_or_concat with rfl | ⟨q, b, rfl⟩
  · rfl
  · rw [List.concat_eq_append, List.map_append]
    exact clearLast_append _ _

theorem ind_off (pre : List Bool) (last : Bool) : ind pre last false = (pre ++ [last]).map off := by
  simp [ind, off]

theorem asStr_off (b : Bool) : IndentLevel.asStr (off b) = bar b := by cases b <;> rfl

theorem map_asStr_off (l : List Bool) : ((l.map off).map IndentLevel.asStr).flatten = l.flatMap bar := by
  induction l with
  | nil => rfl
  | cons b l ih => simp [asStr_off] at ih ⊢; exact ih

theorem stripRev_off : ∀ l : List Bool, stripRev (l.map off) = (l.dropWhile id).map off
  | [] => rfl
  | true :: l => by
    have := stripRev_off l
    simpa [stripRev, IndentLevel.isAllWhitespace, off, List.dropWhile] using this
  | false :: l => by simp [stripRev, IndentLevel.isAllWhitespace, off, List.dropWhile]

theorem map_asStr_off' (l : List Bool) : (l.map (IndentLevel.asStr ∘ off)).flatten = l.flatMap bar := by
  rw [← map_asStr_off, List.map_map]

theorem partialOf_first (pre : List Bool) (last : Bool) :
    (partialOf (ind pre last true)).flatten = pre.flatMap bar ++ (if last then ['`', '-', '-'] else ['|', '-', '-']) := by
  cases last <;>
    simp [partialOf, ind, stripRev, IndentLevel.isAllWhitespace, IndentLevel.leading, map_asStr_off']

theorem partialOf_bar (pre : List Bool) :
    (partialOf (ind pre false false)).flatten = pre.flatMap bar ++ ['|'] := by
  simp [partialOf, ind, stripRev, IndentLevel.isAllWhitespace, IndentLevel.leading, map_asStr_off']

theorem partialOf_last (pre : List Bool) :
    (partialOf (ind pre true false)).flatten = match pre.reverse.dropWhile id with
      | [] => []
      | _ :: up => up.reverse.flatMap bar ++ ['|'] := by
  have hr : (ind pre true false).reverse = (true :: pre.reverse).map off := by simp [ind, off]
  unfold partialOf
  rw [hr, stripRev_off]
  have : (true :: pre.reverse).dropWhile id = pre.reverse.dropWhile id := by simp [List.dropWhile]
  rw [this]
  cases hd : pre.reverse.dropWhile id with
  | nil => rfl
  | cons b up =>
    have hb : b = false := by
      have := List.head?_dropWhile_not id pre.reverse
      rw [hd] at this
      simpa using this
    subst hb
    simp [off, IndentLevel.leading]
    rw [← map_asStr_off', List.map_reverse]

theorem completeOf_ind (pre : List Bool) (last first : Bool) :
    completeOf (ind pre last first) = [IndentLevel.trailingSpaces ⟨last, first⟩] := by
  simp [completeOf, ind]

theorem margin_ind (pre : List Bool) (last first nl : Bool) :
    (partialOf (ind pre last first) ++ completeOf (ind pre last (first && !nl))).flatten
      = margin (pre ++ [last]) first nl := by
  rw [List.flatten_append, completeOf_ind]
  unfold margin
  rw [List.reverse_append, List.reverse_singleton, List.singleton_append]
  cases first with
  | true =>
    rw [partialOf_first]
    cases nl <;> cases last <;> simp [IndentLevel.trailingSpaces]
  | false =>
    cases last with
    | false => rw [partialOf_bar]; simp [IndentLevel.trailingSpaces, bar]
    | true =>
      rw [partialOf_last]
      simp only [Bool.false_eq_true, if_false, if_true]
      cases pre.reverse.dropWhile id <;> simp [IndentLevel.trailingSpaces]

theorem body_append (path : List Bool) : ∀ (A B : List Text) (b first : Bool), (∀ c ∈ A, c ≠ []) →
    (∀ c ∈ A, '\n' ∈ c → endsLine c = true) →
    body path b first (A ++ B) = body path b first A ++
      body path (endNl b A.flatten) (first && !decide ('\n' ∈ A.flatten)) B
  | [], B, b, first, _, _ => by simp [body, endNl]
  | c :: A, B, b, first, hne, hnl => by
    have h1 : endNl b c = endsLine c := by
      unfold endNl endsLine
      cases hl : c.getLast? with
      | none => simp at hl; exact absurd hl (hne c (by simp))
      | some d => simp
    have h2 : (endsLine c) = decide ('\n' ∈ c) := by
      by_cases h : '\n' ∈ c
      · simp [h, hnl c (by simp) h]
      · simp [h, endsLine_line h]
    rw [List.cons_append, body, body, body_append path A B _ _ (fun d hd => hne d (by simp [hd]))
      (fun d hd => hnl d (by simp [hd])), List.flatten_cons, endNl_append, h1]
    have : (first && !endsLine c && !decide ('\n' ∈ A.flatten)) = (first && !decide ('\n' ∈ c ++ A.flatten)) := by
      rw [h2]
      by_cases h : '\n' ∈ c <;> by_cases h' : '\n' ∈ A.flatten <;> simp_all
    rw [this]
    simp

theorem cuts_ne : ∀ (s c : Text), c ∈ cuts s → c ≠ [] ∧ ('\n' ∈ c → endsLine c = true)
  | [], c, h => by simp [cuts] at h
  | a :: s, c, h => by
    unfold cuts at h
    split at h
    · rcases List.mem_cons.1 h with rfl | h
      · simp [endsLine]
      · exact cuts_ne s c h
    · rename_i ha
      cases hc : cuts s with
      | nil =>
        rw [hc] at h
        simp at h; subst h
        exact ⟨by simp, fun e => by simp at e; exact absurd e.symm ha⟩
      | cons l ls =>
        rw [hc] at h
        simp only [List.mem_cons] at h
        rcases h with rfl | h
        · have := cuts_ne s l (by rw [hc]; simp)
          refine ⟨by simp, fun e => ?_⟩
          have hm : '\n' ∈ l := by
            rcases List.mem_cons.1 e with e | e
            · exact absurd e.symm ha
            · exact e
          have := this.2 hm
          unfold endsLine at this ⊢
          obtain ⟨b, m, rfl⟩ := List.exists_cons_of_ne_nil (List.ne_nil_of_mem hm)
          simpa using this
        · exact cuts_ne s c (by rw [hc]; simp [h])

theorem flatten_cuts : ∀ s : Text, (cuts s).flatten = s
  | [] => rfl
  | c :: s => by
    have ih := flatten_cuts s
    unfold cuts
    split
    · rename_i h; subst h; simp [ih]
    · cases hc : cuts s with
      | nil => rw [hc] at ih; simp at ih; subst ih; rfl
      | cons l ls => rw [hc] at ih; simp at ih ⊢; exact ih

theorem exact_writeStrLoop (pre : List Bool) (last : Bool) : ∀ (n : Nat) (s : Text) (b first : Bool),
    s.length ≤ n →
    ∃ W, W.flatten = body (pre ++ [last]) b first (cuts s) ∧
      Emits put (writeStrLoop put n s) (lineOf b) (ind pre last first) W () (lineOf (endNl b s))
        (ind pre last (first && !decide ('\n' ∈ s)))
  | n, [], b, first, _ => ⟨[], rfl, by
      have : Emits put (writeStrLoop put n []) (lineOf b) (ind pre last first) [] () (lineOf b) (ind pre last first) := by
        cases n <;> exact Emits.pure ()
      simpa [endNl] using this⟩
  | 0, c :: cs, _, _, h => by simp at h
  | n + 1, c :: cs, b, first, h => by
    by_cases hn : '\n' ∈ c :: cs
    · obtain ⟨a, r, hs, ha⟩ := split_nl hn
      have hle := lineEnd_nl (r := r) ha
      have hlen : r.length ≤ n := by
        have := congrArg List.length hs
        simp at this h; omega
      obtain ⟨W, hW, hE⟩ := exact_writeStrLoop pre last n r true false hlen
      simp only [hn, decide_true, Bool.not_true, Bool.and_false]
      rw [hs]
      have htake : (a ++ '\n' :: r).take (a.length + 1) = a ++ ['\n'] := by
        rw [show a ++ '\n' :: r = (a ++ ['\n']) ++ r by simp, List.take_left' (by simp)]
      have hdrop : (a ++ '\n' :: r).drop (a.length + 1) = r := by
        rw [show a ++ '\n' :: r = (a ++ ['\n']) ++ r by simp, List.drop_left' (by simp)]
      have hend : endNl b (a ++ '\n' :: r) = endNl true r := by
        rw [endNl_append, endNl_cons]; rfl
      refine ⟨indentOf (lineOf b) (ind pre last first) (ind pre last false) ++ [a ++ ['\n']] ++ W, ?_, ?_⟩
      · rw [cuts_nl r ha, body, endsLine_nl, List.flatten_append, List.flatten_append, hW]
        simp only [Bool.not_true, Bool.and_false]
        cases b with
        | false => simp [lineOf, indentOf]
        | true =>
          have := margin_ind pre last first true
          simp only [Bool.not_true, Bool.and_false] at this
          simp only [lineOf, indentOf, if_true]
          rw [this]; simp
      · have := emits_round (put := put) (n := n) (s := a ++ '\n' :: r) (by simp) (l := lineOf b)
          (i := ind pre last first)
          (W := W) (l1 := lineOf (endNl true r)) (i1 := ind pre last false) (by
            rw [hle]; simp only [if_true, hdrop, clearLast_ind]
            simpa [lineOf] using hE)
        rw [hle] at this
        simp only [if_true, htake, clearLast_ind] at this
        rw [hend]; exact this
    · have hle := lineEnd_line hn
      refine ⟨indentOf (lineOf b) (ind pre last first) (ind pre last first) ++ [c :: cs], ?_, ?_⟩
      · rw [cuts_line (by simp) hn, body, endsLine_line hn, List.flatten_append]
        cases b with
        | false => simp [lineOf, indentOf, body]
        | true =>
          have := margin_ind pre last first false
          simp only [Bool.not_false, Bool.and_true] at this
          simp only [lineOf, indentOf, if_true]
          rw [this]; simp [body]
      · have hend : endNl b (c :: cs) = false := by
          have := endsLine_line hn
          unfold endsLine at this
          unfold endNl
          cases h : (c :: cs).getLast? with
          | none => simp at h
          | some d => rw [h] at this; simpa using this
        have := emits_round (put := put) (n := n) (s := c :: cs) (by simp) (l := lineOf b) (i := ind pre last first)
          (W := []) (l1 := .content) (i1 := ind pre last first) (by
            rw [hle]
            simp only [List.drop_length, Bool.false_eq_true, if_false]
            cases n <;> exact Emits.pure ())
        rw [hle] at this
        simp only [Bool.false_eq_true, if_false, List.take_length, List.append_nil] at this
        simp only [hn, decide_false, Bool.not_false, Bool.and_true]
        rw [hend]; exact this

theorem exact_writeChunks (pre : List Bool) (last : Bool) : ∀ (cs : List Text) (b first : Bool),
    ∃ W, W.flatten = body (pre ++ [last]) b first (cs.flatMap cuts) ∧
      Emits put (writeChunks put cs) (lineOf b) (ind pre last first) W () (lineOf (endNl b cs.flatten))
        (ind pre last (first && !decide ('\n' ∈ cs.flatten)))
  | [], b, first => ⟨[], rfl, by
      have : Emits put (writeChunks put []) (lineOf b) (ind pre last first) [] () (lineOf b) (ind pre last first) :=
        Emits.pure ()
      simpa [endNl] using this⟩
  | c :: cs, b, first => by
    obtain ⟨W1, h1, e1⟩ := exact_writeStrLoop (put := put) pre last c.length c b first (Nat.le_refl _)
    obtain ⟨W2, h2, e2⟩ := exact_writeChunks pre last cs (endNl b c) (first && !decide ('\n' ∈ c))
    refine ⟨W1 ++ W2, ?_, ?_⟩
    · rw [List.flatten_append, h1, h2, List.flatMap_cons, body_append _ _ _ _ _ (fun d hd => (cuts_ne c d hd).1)
        (fun d hd => (cuts_ne c d hd).2), flatten_cuts]
    · unfold writeChunks writeStr
      rw [List.flatten_cons, endNl_append]
      refine Emits.bind e1 ?_
      have : (first && !decide ('\n' ∈ c) && !decide ('\n' ∈ cs.flatten)) = (first && !decide ('\n' ∈ c ++ cs.flatten)) := by
        by_cases h : '\n' ∈ c <;> by_cases h' : '\n' ∈ cs.flatten <;> simp_all
      rw [← this]; exact e2

theorem exact_openItem (last opn : Bool) (i : List IndentLevel) :
    Emits put (openItem put last) (lineOf (!opn)) i (if opn then [['\n']] else []) () .beforeIndent
      (clearLast i ++ [⟨last, true⟩]) := by
  cases opn with
  | true => exact emits_openItem last i
  | false =>
    unfold openItem
    refine Emits.step (a := .beforeIndent) (fun σ => rfl) ?_
    exact Emits.of_run fun σ => rfl

/-- Whether there is something on the line of the cursor after the given nodes. -/
def sheetEnd (opn : Bool) : List (List Bool × List Text) → Bool
  | [] => opn
  | (_, cs) :: rest => sheetEnd (leaves cs) rest

theorem sheet_append : ∀ (A B : List (List Bool × List Text)) (opn : Bool),
    sheet opn (A ++ B) = sheet opn A ++ sheet (sheetEnd opn A) B
  | [], _, _ => rfl
  | (p, cs) :: A, B, opn => by rw [List.cons_append, sheet, sheet, sheet_append A B, sheetEnd]; simp

theorem sheetEnd_append : ∀ (A B : List (List Bool × List Text)) (opn : Bool),
    sheetEnd opn (A ++ B) = sheetEnd (sheetEnd opn A) B
  | [], _, _ => rfl
  | (p, cs) :: A, B, opn => by rw [List.cons_append, sheetEnd, sheetEnd, sheetEnd_append A B]

theorem leaves_endNl (cs : List Text) : leaves cs = !endNl true cs.flatten := by
  unfold leaves endNl
  cases cs.flatten.getLast? with
  | none => rfl
  | some d => rfl

variable {f : Forest T} {s : Shape} {disp : T → Fmt}

mutual
theorem exact_tree (hv : s.Valid) (lab : Nat → List Text) : ∀ (t : Tree Nat) (i : List IndentLevel) (path : List Bool)
    (last opn : Bool), Tree.IsTree s.kids t → (∀ y ∈ t.preorder, Shown disp f y (lab y)) →
    lastFlag s t.root = last → clearLast i = path.map off →
    ∃ W, W.flatten = sheet opn (nodes (path ++ [last]) (t.map lab)) ∧
      ∀ (R : List (Ev Nat)) (W' : List Text) (r : List (Ev Nat)) (l2 : LineState) (i2 : List IndentLevel),
        Emits put (flat put disp f (lastFlag s) R) (lineOf (!sheetEnd opn (nodes (path ++ [last]) (t.map lab))))
          (clearLast i) W' r l2 i2 →
        Emits put (flat put disp f (lastFlag s) (t.events ++ R)) (lineOf (!opn)) i (W ++ W') r l2 i2
  | .node x ts, i, path, last, opn, ⟨h1, h2⟩, hd, hlast, hi => by
    simp only [Tree.root] at hlast
    obtain ⟨W1, hW1, hE1⟩ := exact_writeChunks (put := put) path last (lab x) true true
    generalize hi1 : ind path last (true && !decide ('\n' ∈ (lab x).flatten)) = i1 at hE1
    have hcl1 : clearLast i1 = (path ++ [last]).map off := by rw [← hi1, clearLast_ind, ind_off]
    obtain ⟨W2, hW2, hE2⟩ := exact_forest hv lab ts i1 (path ++ [last]) (leaves (lab x)) x [] (by simpa using h1) h2
      (fun y hy => hd y (by simp [Tree.preorder, hy])) hcl1
    refine ⟨(if opn then [['\n']] else []) ++ (W1 ++ W2), ?_, ?_⟩
    · rw [List.flatten_append, List.flatten_append, hW1, hW2]
      simp only [Tree.map, nodes, sheet]
      cases opn <;> simp
    · intro R W' r l2 i2 hR
      have hev : (Tree.node x ts).events ++ R = .opn x :: (Tree.eventsL ts ++ (.cls x :: R)) := by
        simp [Tree.events]
      rw [hev, flat, hlast, writeData_eq (hd x (by simp [Tree.preorder]))]
      simp only [Tree.map, nodes, sheetEnd] at hR
      have hcl : Emits put (flat put disp f (lastFlag s) (.cls x :: R))
          (lineOf (!sheetEnd (leaves (lab x)) (nodesL (path ++ [last]) (Tree.mapL lab ts))))
          (if ts.isEmpty then i1 else clearLast i1) W' r l2 i2 := by
        rw [flat]
        have hpop : (if ts.isEmpty then i1 else clearLast i1).dropLast = clearLast i ∧
            (if ts.isEmpty then i1 else clearLast i1).getLast? ≠ none := by
          rw [hi]
          split
          · rw [← hi1]; simp [ind]
          · rw [hcl1]; simp
        refine Emits.step (a := true) (i1 := clearLast i) (fun σ => ?_) (by simpa using hR)
        unfold closeItem
        simp only [P.run_bind, P.run_indents]
        cases hg : (if ts.isEmpty then i1 else clearLast i1).getLast? with
        | none => exact absurd hg hpop.2
        | some j => simp only [P.run_bind, P.run_modify, P.run_pure, hpop.1]
      have := hE2 (.cls x :: R) W' r l2 i2 hcl
      rw [leaves_endNl, Bool.not_not] at this
      have h3 := Emits.bind hE1 (k := fun _ => flat put disp f (lastFlag s) (Tree.eventsL ts ++ (.cls x :: R))) this
      have ho := exact_openItem (put := put) last opn i
      rw [hi] at ho
      have h4 := Emits.bind ho (k := fun _ => writeChunks put (lab x) >>= fun _ =>
        flat put disp f (lastFlag s) (Tree.eventsL ts ++ (.cls x :: R))) h3
      simpa [List.append_assoc] using h4
theorem exact_forest (hv : s.Valid) (lab : Nat → List Text) : ∀ (ts : List (Tree Nat)) (i : List IndentLevel)
    (path : List Bool) (opn : Bool)
    (x : Nat) (pre : List Nat), s.kids x = pre ++ ts.map Tree.root → Tree.IsForest s.kids ts →
    (∀ y ∈ Tree.preorderL ts, Shown disp f y (lab y)) → clearLast i = path.map off →
    ∃ W, W.flatten = sheet opn (nodesL path (Tree.mapL lab ts)) ∧
      ∀ (R : List (Ev Nat)) (W' : List Text) (r : List (Ev Nat)) (l2 : LineState) (i2 : List IndentLevel),
        Emits put (flat put disp f (lastFlag s) R) (lineOf (!sheetEnd opn (nodesL path (Tree.mapL lab ts))))
          (if ts.isEmpty then i else clearLast i) W' r l2 i2 →
        Emits put (flat put disp f (lastFlag s) (Tree.eventsL ts ++ R)) (lineOf (!opn)) i (W ++ W') r l2 i2
  | [], i, path, opn, x, pre, _, _, _, _ => ⟨[], by simp [Tree.mapL, nodesL, sheet], fun R W' r l2 i2 h => by
      simpa [Tree.eventsL, Tree.mapL, nodesL, sheetEnd] using h⟩
  | t :: ts, i, path, opn, x, pre, hk, hf, hd, hi => by
    have hemp : (Tree.mapL lab ts).isEmpty = ts.isEmpty := by cases ts <;> rfl
    have hlast : lastFlag s t.root = ts.isEmpty := by
      unfold lastFlag
      cases ts with
      | nil => rw [next_last hv (x := x) (pre := pre) (by simpa using hk)]; rfl
      | cons t' ts => rw [next_mid hv (x := x) (pre := pre) (b := t'.root) (post := ts.map Tree.root) (by simpa using hk)]; rfl
    obtain ⟨W1, hW1, hE1⟩ := exact_tree hv lab t i path ts.isEmpty opn hf.1
      (fun y hy => hd y (by simp [Tree.preorderL, hy])) hlast hi
    obtain ⟨W2, hW2, hE2⟩ := exact_forest hv lab ts (clearLast i) path
      (sheetEnd opn (nodes (path ++ [ts.isEmpty]) (t.map lab))) x (pre ++ [t.root]) (by rw [hk]; simp) hf.2
      (fun y hy => hd y (by simp [Tree.preorderL, hy])) (by rw [clearLast_clearLast]; exact hi)
    refine ⟨W1 ++ W2, ?_, ?_⟩
    · rw [List.flatten_append, hW1, hW2]
      simp only [Tree.mapL, nodesL, hemp, sheet_append]
    · intro R W' r l2 i2 hR
      simp only [List.isEmpty_cons, Bool.false_eq_true, if_false, Tree.mapL, nodesL, hemp, sheetEnd_append] at hR
      have := hE2 R W' r l2 i2 (by rw [clearLast_clearLast]; simpa using hR)
      have := hE1 (Tree.eventsL ts ++ R) _ r l2 i2 this
      simpa [Tree.eventsL, List.append_assoc] using this
end

theorem body_root (b first : Bool) : ∀ cs : List Text, body [] b first cs = cs.flatten
  | [] => rfl
  | c :: cs => by rw [body, body_root _ _ cs]; simp [margin]

theorem flatten_flatMap_cuts (cs : List Text) : (cs.flatMap cuts).flatten = cs.flatten := by
  induction cs with
  | nil => rfl
  | cons c cs ih => rw [List.flatMap_cons, List.flatten_append, flatten_cuts, ih]; rfl

theorem exact_inner (hm : Models f s) {t : Tree Nat} (ht : Tree.IsTree s.kids t)
    (hx : s.alive t.root = true) (lab : Nat → List Text) (hd : ∀ y ∈ t.preorder, Shown disp f y (lab y)) :
    ∃ W l i, W.flatten = Printed.print (t.map lab) ∧
      Emits put (inner put disp f t.root) .beforeIndent [] W () l i := by
  rw [inner_eq hm ht hx]
  cases t with
  | node x ts =>
    have h1 := ht.1
    have h2 := ht.2
    obtain ⟨W1, hW1, hE1⟩ := emits_writeChunks (put := put) (p := []) (lab x) true [] (fun _ => rfl)
      (fun _ => by simp [clearLast_nil, partialOf, completeOf, stripRev])
    have : (if '\n' ∈ (lab x).flatten then clearLast [] else []) = [] := by split <;> rfl
    rw [this] at hE1
    obtain ⟨W2, hW2, hE2⟩ := exact_forest (put := put) hm.valid lab ts [] [] (leaves (lab x)) x [] (by simpa using h1) h2
      (fun y hy => hd y (by simp [Tree.preorder, hy])) rfl
    refine ⟨W1 ++ W2, lineOf (!sheetEnd (leaves (lab x)) (nodesL [] (Tree.mapL lab ts))), [], ?_, ?_⟩
    · rw [List.flatten_append, hW1, weave_nil, hW2]
      simp only [Tree.map, Printed.print, nodes, sheet, body_root, flatten_flatMap_cuts]
      simp
    · have htail : (Tree.node x ts).events.tail = Tree.eventsL ts ++ [.cls x] := by simp [Tree.events]
      rw [htail, Tree.root, writeData_eq (hd x (by simp [Tree.preorder]))]
      refine Emits.bind hE1 ?_
      have hcl : Emits put (flat put disp f (lastFlag s) [.cls x])
          (lineOf (!sheetEnd (leaves (lab x)) (nodesL [] (Tree.mapL lab ts))))
          (if ts.isEmpty then [] else clearLast []) [] []
          (lineOf (!sheetEnd (leaves (lab x)) (nodesL [] (Tree.mapL lab ts)))) [] := by
        rw [clearLast_nil, ite_self]
        exact Emits.of_run fun σ => rfl
      have h3 := hE2 _ _ _ _ _ hcl
      rw [List.append_nil, leaves_endNl, Bool.not_not] at h3
      refine Emits.done h3 fun σ => ?_
      have : Dft.next f.hier (ends []) = .ok (none, none) := rfl
      rw [this, leaves_endNl]
      rfl

end DebugPrint
end Treena
