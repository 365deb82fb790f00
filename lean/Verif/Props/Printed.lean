import Verif.Proof.PrintedPic
import Verif.Props.Print
import Verif.Proof.PlainStep
import Verif.Props.SampleRun
/-!
# C71: exactly what `debug_print` prints, and when it is the picture
-/

set_option autoImplicit false

namespace Treena
open DebugPrint Render

variable {S T : Type} {f : Forest T} {s : Shape}

/-- C71: for all trees, all texts and all ways of splitting them into pieces, and whatever the sink does: the formatter writes
pieces `W` that make up the text `Printed.print` of the tree of pieces, stopping (and returning `Err`) at the first
piece the sink refuses. -/
theorem C71_exact (hm : Models f s) {t : Tree Nat} (ht : Tree.IsTree s.kids t)
    (hx : s.alive t.root = true) (put : S → Text → Except S S) (disp : T → Fmt) (lab : Nat → List Text)
    (hd : ∀ y ∈ t.preorder, ∃ d, f.getData y = some d ∧ disp d = .ofPieces true (lab y)) (σ : S) :
    ∃ W, W.flatten = Printed.print (t.map lab) ∧
      f.debugPrint put disp t.root σ =
        .ok (if (feed put σ W).2 = none then .ok () else .error ()) (feed put σ W).1 := by
  obtain ⟨W, l, i, hW, hE⟩ := exact_inner (put := put) hm ht hx lab hd
  refine ⟨W, hW, ?_⟩
  have hn : f.node t.root = some t.root := by
    unfold Forest.node; rw [hm.isAlive, hx]; rfl
  unfold Forest.debugPrint
  rw [hn, expect_some]
  obtain ⟨h1, h2⟩ := hE σ
  have hnew : Writer.new σ = ⟨σ, .beforeIndent, []⟩ := rfl
  simp only [hnew]
  by_cases hf : (feed put σ W).2 = none
  · rw [h1 hf, if_pos hf]
  · obtain ⟨l'', i'', he⟩ := h2 hf
    rw [he, if_neg hf]

theorem feed_string : ∀ (W : List Text) (out : Text),
    feed (fun out piece => (.ok (out ++ piece) : Except Text Text)) out W = (out ++ W.flatten, none)
  | [], out => by simp [feed]
  | w :: W, out => by simp [feed, feed_string W]

/-- C71 for `format!`: the `String` is `Printed.print` of the tree of pieces. -/
theorem C71_string (hm : Models f s) {t : Tree Nat} (ht : Tree.IsTree s.kids t)
    (hx : s.alive t.root = true) (disp : T → Fmt) (lab : Nat → List Text)
    (hd : ∀ y ∈ t.preorder, ∃ d, f.getData y = some d ∧ disp d = .ofPieces true (lab y)) (out : Text) :
    f.debugPrint (fun out piece => .ok (out ++ piece)) disp t.root out =
      .ok (.ok ()) (out ++ Printed.print (t.map lab)) := by
  obtain ⟨W, hW, h⟩ := C71_exact hm ht hx (fun out piece => .ok (out ++ piece)) disp lab hd out
  rw [h, feed_string, hW]; rfl

/-- C71: the printed text is the picture exactly if the printed node has no children or the texts are as listed in
`Render.OkTree`: the condition of `C33_picture_partial` cannot be weakened (but for a node without children, whose text
is always printed as it is). -/
theorem C71_picture_iff (hm : Models f s) {t : Tree Nat} (ht : Tree.IsTree s.kids t)
    (hx : s.alive t.root = true) (disp : T → Fmt) (lab : Nat → List Text)
    (hd : ∀ y ∈ t.preorder, ∃ d, f.getData y = some d ∧ disp d = .ofPieces true (lab y)) (out : Text) :
    f.debugPrint (fun out piece => .ok (out ++ piece)) disp t.root out =
        .ok (.ok ()) (out ++ render (t.map fun y => (lab y).flatten)) ↔
      t.subs = [] ∨ OkTree (t.map lab) := by
  have hmap : (t.map lab).map List.flatten = t.map fun y => (lab y).flatten := Tree.map_map lab List.flatten t
  rw [C71_string hm ht hx disp lab hd out]
  constructor
  · intro h
    have h : Printed.print (t.map lab) = render ((t.map lab).map List.flatten) := by
      rw [hmap]
      have := Res.ok.inj h
      exact List.append_cancel_left this.2
    rcases okTree_of_print h with h | h
    · left
      cases t with
      | node x ts =>
        cases ts with
        | nil => rfl
        | cons t ts => simp [Tree.map, Tree.mapL, Tree.subs] at h
    · exact .inr h
  · intro h
    rcases h with h | h
    · cases t with
      | node x ts =>
        simp only [Tree.subs] at h
        subst h
        simp only [Tree.map, Tree.mapL, print_leaf, render_leaf]
    · obtain ⟨W, hW, h'⟩ := C33_picture_partial hm ht hx (fun out piece => .ok (out ++ piece)) disp lab hd h out
      rw [C71_string hm ht hx disp lab hd out, feed_string, hW, hmap] at h'
      exact h'

/-- The sample forest with texts of several lines, some empty, in several pieces: what is printed is not the picture. -/
example (out : Text) : Sample.built.debugPrint (fun out piece => .ok (out ++ piece))
    (fun d => .ofPieces true (if d = 14 then [] else [['n', '\n'], ['m']])) 2 out
      = .ok (.ok ()) (out ++ ['n', '\n', 'm', '\n', '`', '-', '-', ' ', ' ', ' ', ' ', 'n', '\n', ' ', ' ', ' ', ' ', 'm']) := by
  have h := C71_string (f := Sample.built) (s := Sample.shape) Sample.models (t := Sample.tree2)
    ⟨rfl, ⟨rfl, trivial⟩, ⟨rfl, trivial⟩, trivial⟩ rfl
    (fun d => .ofPieces true (if d = 14 then [] else [['n', '\n'], ['m']]))
    (fun y => if y = 4 then [] else [['n', '\n'], ['m']]) (by
      intro y hy
      have : y = 2 ∨ y = 4 ∨ y = 5 := by
        simpa [Sample.tree2, Tree.preorder, Tree.preorderL] using hy
      rcases this with rfl | rfl | rfl
      · exact ⟨12, rfl, rfl⟩
      · exact ⟨14, rfl, rfl⟩
      · exact ⟨15, rfl, rfl⟩) out
  exact h

/-! ### The hypotheses can be met

Each example applies the theorem named in its comment to a concrete forest. -/

section
/-- `C71_exact`: every node shows two lines. -/
example := C71_exact Sample.models (t := Sample.tree2) Sample.isTree2 rfl (fun (out : Text) p => .ok (out ++ p))
  (fun _ => .ofPieces true [['a', '\n'], ['b']]) (fun _ => [['a', '\n'], ['b']])
  (fun y hy => by
    have : ∀ y ∈ Sample.tree2.preorder, (Sample.built.getData y).isSome = true := by decide
    obtain ⟨d, hd⟩ := Option.isSome_iff_exists.1 (this y hy)
    exact ⟨d, hd, rfl⟩) []

/-- `C71_picture_iff`: the same. -/
example := C71_picture_iff Sample.models (t := Sample.tree2) Sample.isTree2 rfl
  (fun _ => .ofPieces true [['a', '\n'], ['b']]) (fun _ => [['a', '\n'], ['b']])
  (fun y hy => by
    have : ∀ y ∈ Sample.tree2.preorder, (Sample.built.getData y).isSome = true := by decide
    obtain ⟨d, hd⟩ := Option.isSome_iff_exists.1 (this y hy)
    exact ⟨d, hd, rfl⟩) []

end

end Treena
