import Verif.Proof.Marked
import Verif.Props.Sample
import Verif.Props.SampleRun
/-!
# C33, C62: debug printing
-/

set_option autoImplicit false

namespace Treena
open DebugPrint Render

variable {S T : Type} {f : Forest T} {s : Shape}

/-- C33 for the texts `debug_print` handles (`Render.OkTree`): whatever the sink does, the formatter writes pieces `W`
that make up the picture of the tree, stopping (and returning `Err`) at the first piece the sink refuses.
Missing for the full claim: texts with an empty last line, texts whose first line arrives together with its
newline, and multi-line texts of last children below the first level; for those the claim is false
(`C33_false`). -/
theorem C33_picture_partial (hm : Models f s) {t : Tree Nat} (ht : Tree.IsTree s.kids t)
    (hx : s.alive t.root = true) (put : S → Text → Except S S) (disp : T → Fmt)
    (lab : Nat → List Text)
    (hd : ∀ y ∈ t.preorder, ∃ d, f.getData y = some d ∧ disp d = .ofPieces true (lab y))
    (hok : OkTree (t.map lab)) (σ : S) :
    ∃ W, W.flatten = render ((t.map lab).map List.flatten) ∧
      f.debugPrint put disp t.root σ =
        .ok (if (feed put σ W).2 = none then .ok () else .error ()) (feed put σ W).1 := by
  obtain ⟨W, l, i, hW, hE⟩ := emits_inner (put := put) hm ht hx lab hd hok
  refine ⟨W, hW, ?_⟩
  have hn : f.node t.root = some t.root := by
    unfold Forest.node; rw [hm.isAlive, hx]; rfl
  unfold Forest.debugPrint
  rw [hn, expect_some]
  obtain ⟨h1, h2⟩ := hE σ
  have hnew : Writer.new σ = ⟨σ, .beforeIndent, []⟩ := rfl
  simp only [hnew]
  by_cases hf : (feed put σ W).2 = none
  · rw [h1 hf, if_pos hf]
  · obtain ⟨l'', i'', he⟩ := h2 hf
    rw [he, if_neg hf]

theorem okL_of_oneLine : ∀ (ts : List (Tree Nat)) (lab : Nat → List Text) (n : Nat),
    (∀ y ∈ Tree.preorderL ts, OneLine (lab y).flatten) → OkL n (Tree.mapL lab ts)
  | [], _, _, _ => trivial
  | .node x us :: ts, lab, n, h => by
    simp only [Tree.mapL, Tree.map, OkL, Ok]
    exact ⟨⟨.inl (h x (by simp [Tree.preorderL, Tree.preorder])),
      okL_of_oneLine us lab (n + 1) fun y hy => h y (by simp [Tree.preorderL, Tree.preorder, hy])⟩,
      okL_of_oneLine ts lab n fun y hy => h y (by simp [Tree.preorderL, hy])⟩

/-- The usual case of C33: printing to a `String` a tree whose data all print as one non-empty line gives the picture of the
tree, however each datum splits its line into pieces. -/
theorem C33_single_lines_partial (hm : Models f s) {t : Tree Nat} (ht : Tree.IsTree s.kids t)
    (hx : s.alive t.root = true) (disp : T → Fmt) (text : Nat → Text)
    (hd : ∀ y ∈ t.preorder, ∃ d cs, f.getData y = some d ∧ disp d = .ofPieces true cs ∧ cs.flatten = text y ∧
      text y ≠ [] ∧ '\n' ∉ text y) (out : Text) :
    f.debugPrint (fun out piece => .ok (out ++ piece)) disp t.root out =
      .ok (.ok ()) (out ++ render (t.map text)) := by
  have hfeed : ∀ (W : List Text) (out : Text),
      feed (fun out piece => (.ok (out ++ piece) : Except Text Text)) out W = (out ++ W.flatten, none) := by
    intro W
    induction W with
    | nil => intro out; simp [feed]
    | cons w W ih => intro out; simp [feed, ih]
  have hlab : ∀ y, ∃ cs, y ∈ t.preorder → (∃ d, f.getData y = some d ∧ disp d = .ofPieces true cs) ∧
      cs.flatten = text y := by
    intro y
    by_cases hy : y ∈ t.preorder
    · obtain ⟨d, cs, h1, h2, h3, _⟩ := hd y hy
      exact ⟨cs, fun _ => ⟨⟨d, h1, h2⟩, h3⟩⟩
    · exact ⟨[], fun h => absurd h hy⟩
  obtain ⟨lab, hlab⟩ := Classical.axiomOfChoice hlab
  have hone : ∀ y ∈ t.preorder, OneLine (lab y).flatten := by
    intro y hy
    obtain ⟨_, _, _, _, _, h4, h5⟩ := hd y hy
    rw [(hlab y hy).2]; exact ⟨h4, h5⟩
  have hok : OkTree (t.map lab) := by
    cases t with
    | node x ts =>
      exact ⟨OneLine.filled (hone x (by simp [Tree.preorder])),
        okL_of_oneLine ts lab 1 fun y hy => hone y (by simp [Tree.preorder, hy])⟩
  obtain ⟨W, hW, hrun⟩ := C33_picture_partial hm ht hx (fun out piece => .ok (out ++ piece)) disp lab
    (fun y hy => (hlab y hy).1) hok out
  rw [hrun, hfeed, hW]
  have hmap : (t.map lab).map List.flatten = t.map text := by
    have key : ∀ n, (∀ u : Tree Nat, sizeOf u < n → (∀ y ∈ u.preorder, (lab y).flatten = text y) →
        (u.map lab).map List.flatten = u.map text) := by
      intro n
      induction n with
      | zero => intro u h; omega
      | succ n ih =>
        intro u hu hy
        cases u with
        | node x us =>
          simp only [Tree.map]
          rw [hy x (by simp [Tree.preorder])]
          congr 1
          have hus : ∀ vs : List (Tree Nat), sizeOf vs ≤ sizeOf us →
              (∀ y ∈ Tree.preorderL vs, (lab y).flatten = text y) →
              Tree.mapL List.flatten (Tree.mapL lab vs) = Tree.mapL text vs := by
            intro vs
            induction vs with
            | nil => intro _ _; rfl
            | cons v vs ihv =>
              intro hsz hv
              simp only [Tree.mapL]
              have h1 : sizeOf v < n := by
                simp only [List.cons.sizeOf_spec, Tree.node.sizeOf_spec] at hsz hu; omega
              rw [ih v h1 (fun y h => hv y (by simp [Tree.preorderL, h])),
                ihv (by simp only [List.cons.sizeOf_spec] at hsz; omega)
                  (fun y h => hv y (by simp [Tree.preorderL, h]))]
          exact hus us (Nat.le_refl _) fun y h => hy y (by simp [Tree.preorder, h])
    exact key _ t (Nat.lt_succ_self _) fun y hy => (hlab y hy).2
  rw [hmap]; rfl

/-- Printing a live node of a consistent forest never panics and always ends, whatever the texts, the way
they are split, and the behaviour of the sink and of the data formatter, also if that goes on writing after an
error, provided that it does not itself panic. -/
theorem C33_never_panics (hm : Models f s) {x : Nat} (hx : s.alive x = true) (put : S → Text → Except S S)
    (disp : T → Fmt) (hp : ∀ y d, f.getData y = some d → (disp d).calm) (σ : S) : ∃ r σ', f.debugPrint put disp x σ = .ok r σ' := by
  obtain ⟨t, ht, hr⟩ := Tree.exists_tree hm.valid hx
  subst hr
  have hn : f.node t.root = some t.root := by
    unfold Forest.node; rw [hm.isAlive, hx]; rfl
  unfold Forest.debugPrint
  rw [hn, expect_some]
  simp only
  have := calm_inner (put := put) (disp := disp) hm ht hx hp σ
  cases h : inner put disp f t.root (Writer.new σ) with
  | ok a w => exact ⟨_, _, rfl⟩
  | err w => exact ⟨_, _, rfl⟩
  | fail e w => exact absurd h (this e w)

/-- `Forest::debug_print` panics for a dead node, before anything is written. -/
theorem C33_dead (hm : Models f s) {x : Nat} (hx : s.alive x = false) (put : S → Text → Except S S)
    (disp : T → Fmt) (σ : S) :
    f.debugPrint put disp x σ = .fail (.panic "[precondition] the node must be alive") σ := by
  have hn : f.node x = none := by
    unfold Forest.node; rw [hm.isAlive, hx]; rfl
  unfold Forest.debugPrint
  rw [hn, expect_none]

/-! ### The cases in which the claim is false -/

namespace PrintSample

/-- ```
0
|-- 1
|   `-- 3
`-- 2
``` with data `0, 1, 2, 3`. -/
def forest : Forest Nat :=
  (Forest.createInsert 100 3 (.lastChildOf 1) (Forest.createInsert 100 2 (.lastChildOf 0)
    (Forest.createInsert 100 1 (.lastChildOf 0) (Forest.createRoot 100 0 Forest.new).state).state).state).state

/-- The output of `format!("{}", forest.debug_print(0))` for the given pieces of text of the data. -/
def output (disp : List (List Text)) : Option Text :=
  match forest.debugPrint (fun out piece => .ok (out ++ piece)) (fun d => .ofPieces true (disp.getD d [])) 0 [] with
  | .ok (.ok ()) out => some out
  | _ => none

/-- The picture the claim asks for. -/
def picture (text : List Text) : Text :=
  render ((Tree.node 0 [.node 1 [.node 3 []], .node 2 []]).map fun d => text.getD d [])

end PrintSample

open PrintSample in
/-- The output is the picture for one-line data, split or not; but
* a two-line text of a last child below the first level is indented wrongly on its second line (`|    e` instead of
  `|       e`),
* a two-line text written in one piece is indented wrongly on its first line (`|--   o` instead of `|-- o`), while
  the same text split before the newline is not: the output depends on how the data formatter splits its text,
* a node whose text is empty does not appear at all. -/
theorem C33_false :
    output [[['r']], [['o']], [['t'], ['w']], [['t', 'h']]] = some (picture [['r'], ['o'], ['t', 'w'], ['t', 'h']]) ∧
    output [[['r']], [['o']], [['t']], [['h'], ['\n', 'e']]] ≠ some (picture [['r'], ['o'], ['t'], ['h', '\n', 'e']]) ∧
    output [[['r']], [['o', '\n', 'n']], [['t']], [['h']]] ≠ some (picture [['r'], ['o', '\n', 'n'], ['t'], ['h']]) ∧
    output [[['r']], [['o'], ['\n', 'n']], [['t']], [['h']]] = some (picture [['r'], ['o', '\n', 'n'], ['t'], ['h']]) ∧
    output [[['r']], [['o']], [['t']], []] =
      some ['r', '\n', '|', '-', '-', ' ', 'o', '\n', '`', '-', '-', ' ', 't'] := by
  decide +kernel

/-- The condition on the texts in `C33_picture_partial` is met by a tree in which the root, an inner node and a last
child of the root have several lines. -/
example : OkTree (.node [['r', '\n', 'r']] [.node [['o'], ['\n', 'n']] [.node [['h']] []],
    .node [['t'], ['\n', '\n'], [], ['w']] []]) := by
  refine ⟨⟨'r', rfl, by decide⟩, ⟨.inr ⟨⟨'n', rfl, by decide⟩, ⟨['o'], [['\n', 'n']], rfl, by decide⟩, .inl rfl⟩,
    ⟨.inl ⟨by simp, by decide⟩, trivial⟩, trivial⟩, ?_, trivial⟩
  exact ⟨.inr ⟨⟨'w', rfl, by decide⟩, ⟨['t'], [['\n', '\n'], ['w']], rfl, by decide⟩, .inr rfl⟩, trivial⟩

/-- Likewise for `C33_single_lines_partial`, with the forest of `Props/Sample.lean`: all its nodes hold numbers; each
is printed as two pieces. -/
example (out : Text) : ∃ r, Sample.built.debugPrint (fun out piece => .ok (out ++ piece))
    (fun d => .ofPieces true [['n'], [Char.ofNat (d + 38)]]) 2 out = .ok (.ok ()) (out ++ r) := by
  have h := C33_single_lines_partial (f := Sample.built) (s := Sample.shape) Sample.models (t := Sample.tree2) ?_ rfl
    (fun d => .ofPieces true [['n'], [Char.ofNat (d + 38)]]) (fun y => ['n', Char.ofNat (y + 48)]) ?_ out
  · exact ⟨_, h⟩
  · exact ⟨rfl, ⟨rfl, trivial⟩, ⟨rfl, trivial⟩, trivial⟩
  · intro y hy
    have : y = 2 ∨ y = 4 ∨ y = 5 := by
      simpa [Sample.tree2, Tree.preorder, Tree.preorderL] using hy
    rcases this with rfl | rfl | rfl
    · exact ⟨12, _, rfl, rfl, rfl, by simp, by decide⟩
    · exact ⟨14, _, rfl, rfl, rfl, by simp, by decide⟩
    · exact ⟨15, _, rfl, rfl, rfl, by simp, by decide⟩

/-- The condition of `C33_never_panics` allows formatters that ignore errors and go on. -/
example : (Fmt.write ['a'] fun ok => if ok then .ret true else .write ['b'] fun _ => .ret true).calm := by
  intro b
  cases b
  · intro _; trivial
  · trivial

/-! ### C62 -/

/-- C62: printing to a `String` a live node whose descendants' formatters all succeed returns `Ok` and appends a text
whose characters can be marked so that the data of the nodes in preorder stand in it, complete and unchanged, between
drawing characters only, data of different nodes on different lines and nothing drawn behind data: for all texts (also
empty ones and ones with several lines) and all ways of splitting them. -/
theorem C62_faithful (hm : Models f s) {t : Tree Nat} (ht : Tree.IsTree s.kids t) (hx : s.alive t.root = true)
    (disp : T → Fmt) (text : Nat → Text)
    (hd : ∀ y ∈ t.preorder, ∃ d, f.getData y = some d ∧ (disp d).says = some (text y)) (out : Text) :
    ∃ m, f.debugPrint (fun out piece => .ok (out ++ piece)) disp t.root out = .ok (.ok ()) (out ++ m.map Prod.fst) ∧
      Faithful t.preorder text m := by
  obtain ⟨w', n, z, h1, hi, h2⟩ := inner_push hm ht hx text hd out
  refine ⟨n, ?_, hi.faithful h2⟩
  have hn : f.node t.root = some t.root := by
    unfold Forest.node; rw [hm.isAlive, hx]; rfl
  unfold Forest.debugPrint
  rw [hn, expect_some]
  simp only
  rw [show inner (fun out piece => .ok (out ++ piece)) disp f t.root (Writer.new out) = .ok () w' from h1]
  simp only [hi.sink]

/-- An error (or panic) of a formatter is never swallowed: `Ok` is returned only if the formatters of all the nodes
succeeded. -/
theorem C62_errors_reported (hm : Models f s) {t : Tree Nat} (ht : Tree.IsTree s.kids t) (hx : s.alive t.root = true)
    (disp : T → Fmt) (out out' : Text)
    (h : f.debugPrint (fun out piece => .ok (out ++ piece)) disp t.root out = .ok (.ok ()) out') :
    ∀ y ∈ t.preorder, ∃ d u, f.getData y = some d ∧ (disp d).says = some u := by
  have hn : f.node t.root = some t.root := by
    unfold Forest.node; rw [hm.isAlive, hx]; rfl
  unfold Forest.debugPrint at h
  rw [hn, expect_some] at h
  simp only at h
  cases hr : inner (fun out piece => .ok (out ++ piece)) disp f t.root (Writer.new out) with
  | err w => rw [hr] at h; simp at h
  | fail e w => rw [hr] at h; simp at h
  | ok a w =>
    intro y hy
    obtain ⟨u, d, h1, h2⟩ := inner_refuse hm ht hx out hr y hy
    exact ⟨d, u, h1, h2⟩

/-- The conditions of `C62_faithful` are met by the sample forest with texts of several lines, some empty. -/
example (out : Text) : ∃ m, Sample.built.debugPrint (fun out piece => .ok (out ++ piece))
    (fun d => if d = 14 then .ret true else .ofPieces true [['n', '\n'], [], ['\n']]) 2 out
      = .ok (.ok ()) (out ++ m.map Prod.fst) ∧
    Faithful [2, 4, 5] (fun y => if y = 4 then [] else ['n', '\n', '\n']) m := by
  refine C62_faithful (f := Sample.built) (s := Sample.shape) Sample.models (t := Sample.tree2)
    ⟨rfl, ⟨rfl, trivial⟩, ⟨rfl, trivial⟩, trivial⟩ rfl _ _ ?_ out
  intro y hy
  have : y = 2 ∨ y = 4 ∨ y = 5 := by
    simpa [Sample.tree2, Tree.preorder, Tree.preorderL] using hy
  rcases this with rfl | rfl | rfl
  · exact ⟨12, rfl, rfl⟩
  · exact ⟨14, rfl, rfl⟩
  · exact ⟨15, rfl, rfl⟩

/-! ### The hypotheses can be met

Each example applies the theorem named in its comment to a concrete forest. -/

section
/-- `C33_dead`: the removed node 7. -/
example := C33_dead Sample.models (x := 7) rfl (fun (out : Text) p => .ok (out ++ p)) (fun _ => .ret true) []

/-- `C33_never_panics`: a formatter that returns an error. -/
example := C33_never_panics Sample.models (x := 0) rfl (fun (out : Text) p => .ok (out ++ p)) (fun _ => .ret false) (fun _ _ _ => trivial) []

/-- `C33_picture_partial`: every node shows two lines. -/
example := C33_picture_partial Sample.models (t := Sample.tree2) Sample.isTree2 rfl (fun (out : Text) p => .ok (out ++ p))
  (fun _ => .ofPieces true [['a', 'b']]) (fun _ => [['a', 'b']])
  (fun y hy => by
    have : ∀ y ∈ Sample.tree2.preorder, (Sample.built.getData y).isSome = true := by decide
    obtain ⟨d, hd⟩ := Option.isSome_iff_exists.1 (this y hy)
    exact ⟨d, hd, rfl⟩)
  ⟨⟨'b', rfl, by decide⟩, ⟨.inl ⟨by simp, by decide⟩, trivial⟩, ⟨.inl ⟨by simp, by decide⟩, trivial⟩, trivial⟩ []

/-- `C62_errors_reported`: printing the tree of node 2. -/
example : ∃ out', Sample.built.debugPrint (fun out piece => .ok (out ++ piece)) (fun _ => .ofPieces true [['x']]) 2 [] = .ok (.ok ()) out' ∧
    ∀ y ∈ Sample.tree2.preorder, ∃ d u, Sample.built.getData y = some d ∧ (Fmt.ofPieces true [['x']]).says = some u :=
  ⟨_, rfl, C62_errors_reported Sample.models (t := Sample.tree2) Sample.isTree2 rfl (fun _ => .ofPieces true [['x']]) [] _ rfl⟩

end

end Treena
