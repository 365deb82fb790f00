import Verif.Proof.FmtEffect
import Verif.Props.Printed
import Verif.Props.SampleRun
/-!
# C80: debug printing with formatters that have effects
-/

set_option autoImplicit false

namespace Treena
open DebugPrint Render

variable {S T C : Type} {f : Forest T} {s : Shape}

/-- C80: for formatters without effects nothing new is said. -/
theorem C80_plain (put : S → Text → Except S S) (disp : T → Fmt) (f : Forest T) (x : Nat) :
    f.debugPrintE put (fun d => .ofFmt (disp d)) x = f.debugPrint put disp x := by
  funext σ
  unfold Forest.debugPrintE Forest.debugPrint
  simp only [innerE_ofFmt]
  rfl

private theorem node_live (hm : Models f s) {x : Nat} (hx : s.alive x = true) : f.node x = some x := by
  unfold Forest.node; rw [hm.isAlive, hx]; rfl

/-- C80: whatever the formatters and the sink do (write, fail, go on after a failure, change any state, panic), the formatters
are called on the data of the printed tree in the order of the picture: if printing succeeds, each node's formatter is called exactly
once, in preorder, and returns `Ok(())` before the next call; if printing stops early, the calls made are the first
ones of that series, the last of which may not have returned `Ok(())`.  (`watch` keeps a diary without changing anything else.) -/
theorem C80_calls (hm : Models f s) {t : Tree Nat} (ht : Tree.IsTree s.kids t) (hx : s.alive t.root = true)
    (put : S → Text → Except S S) (disp : T → EFmt S) (σ : S) :
    ∃ log, f.debugPrintE (beside put) (watch disp) t.root (σ, []) = (match f.debugPrintE put disp t.root σ with
        | .ok a σ' => .ok a (σ', log)
        | .fail e σ' => .fail e (σ', log)) ∧
      log ≠ [] ∧ log <+: diary (t.preorder.filterMap f.getData) ∧
      ((∃ σ', f.debugPrintE put disp t.root σ = .ok (.ok ()) σ') → log = diary (t.preorder.filterMap f.getData)) := by
  obtain ⟨c, h1, h2⟩ := innerE_watch (put := put) (disp := disp) hm ht hx (Writer.new σ)
  have hnew : (Writer.new (σ, []) : Writer (S × List (Ev T))) = (Writer.new σ).up [] := rfl
  refine ⟨c, ?_⟩
  unfold Forest.debugPrintE
  rw [node_live hm hx, expect_some]
  simp only [hnew, h1]
  cases hr : innerE put disp f t.root (Writer.new σ) with
  | ok a w =>
    rw [hr] at h2
    simp only at h2
    refine ⟨rfl, ?_, by rw [h2], fun _ => h2⟩
    have hxp : t.root ∈ t.preorder := by cases t; simp [Tree.preorder, Tree.root]
    obtain ⟨d, hd⟩ := Option.isSome_iff_exists.1 ((hm.dataAlive t.root).trans hx)
    have : d ∈ t.preorder.filterMap f.getData := List.mem_filterMap.2 ⟨_, hxp, hd⟩
    rw [h2]
    intro h
    rw [diary, List.flatMap_eq_nil_iff] at h
    exact absurd (h d this) (by simp)
  | err w =>
    rw [hr] at h2
    exact ⟨rfl, h2.1, h2.2, fun ⟨_, h⟩ => by cases h⟩
  | fail e w =>
    rw [hr] at h2
    exact ⟨rfl, h2.1, h2.2, fun ⟨_, h⟩ => by cases h⟩

/-- C80: a formatter that carries a state `c` from call to call (a counter, say), writing the pieces `say c d` and leaving `nxt c d`:
what is printed is the text of C71 for the tree in which each node's pieces are those said in the state left by the
nodes before it in preorder.  The sink, whatever it does, gets pieces `W` making up that text, up to the first it
refuses.  On success the state has gone through all data of the tree, otherwise through those of the first nodes. -/
theorem C80_threaded (hm : Models f s) {t : Tree Nat} (ht : Tree.IsTree s.kids t) (hx : s.alive t.root = true)
    (put : S → Text → Except S S) (say : C → T → List Text) (nxt : C → T → C) (dat : Nat → T)
    (hd : ∀ y ∈ t.preorder, f.getData y = some (dat y)) (σ : S) (c : C) :
    ∃ W c', W.flatten = Printed.print (t.map fun y =>
        say (((t.preorder.takeWhile (· ≠ y)).map dat).foldl nxt c) (dat y)) ∧
      f.debugPrintE (beside put) (numbered say nxt) t.root (σ, c) =
        .ok (if (feed put σ W).2 = none then .ok () else .error ()) ((feed put σ W).1, c') ∧
      ((feed put σ W).2 = none → c' = (t.preorder.map dat).foldl nxt c) ∧
      ∃ P, P ≠ [] ∧ P <+: t.preorder ∧ c' = (P.map dat).foldl nxt c := by
  obtain ⟨W, l, i, hW, hE⟩ := exact_inner (put := put) (disp := fun y => .ofPieces true (labAt say nxt dat c t.preorder y))
    (tagged_models hm) ht hx (labAt say nxt dat c t.preorder) (fun y hy =>
      ⟨y, by rw [tagged_getData, hd y hy]; rfl, rfl⟩)
  obtain ⟨c', h1, h2⟩ := innerE_numbered (put := put) (say := say) (nxt := nxt) hm ht hx hd c (Writer.new σ)
  have hnew : (Writer.new (σ, c) : Writer (S × C)) = (Writer.new σ).up c := rfl
  have hnew' : Writer.new σ = ⟨σ, .beforeIndent, []⟩ := rfl
  have hpne : t.preorder ≠ [] := by cases t; simp [Tree.preorder]
  refine ⟨W, c', hW, ?_⟩
  unfold Forest.debugPrintE
  rw [node_live hm hx, expect_some]
  simp only [hnew, h1]
  obtain ⟨h3, h4⟩ := hE σ
  rw [hnew'] at h2
  simp only [hnew']
  by_cases hf : (feed put σ W).2 = none
  · rw [h3 hf] at h2 ⊢
    simp only at h2
    rw [if_pos hf]
    exact ⟨rfl, fun _ => h2, t.preorder, hpne, List.prefix_refl _, h2⟩
  · obtain ⟨l'', i'', he⟩ := h4 hf
    rw [he] at h2 ⊢
    simp only at h2
    rw [if_neg hf]
    exact ⟨rfl, fun h => absurd h hf, h2⟩

/-- C80: printing a live node never panics and always ends, if the formatters do not panic: neither effects nor failures of formatters
or sink get the printer into a state in which one of its own assertions fails. -/
theorem C80_never_panics (hm : Models f s) {x : Nat} (hx : s.alive x = true) (put : S → Text → Except S S)
    (disp : T → EFmt S) (hp : ∀ y d, f.getData y = some d → (disp d).calm) (σ : S) :
    ∃ r σ', f.debugPrintE put disp x σ = .ok r σ' := by
  obtain ⟨t, ht, hr⟩ := Tree.exists_tree hm.valid hx
  subst hr
  unfold Forest.debugPrintE
  rw [node_live hm hx, expect_some]
  simp only
  have := calmE_inner (put := put) (disp := disp) hm ht hx hp σ
  cases h : innerE put disp f t.root (Writer.new σ) with
  | ok a w => exact ⟨_, _, rfl⟩
  | err w => exact ⟨_, _, rfl⟩
  | fail e w => exact absurd h (this e w)

/-- C80: a dead node: a panic before any formatter is called and anything is written. -/
theorem C80_dead (hm : Models f s) {x : Nat} (hx : s.alive x = false) (put : S → Text → Except S S)
    (disp : T → EFmt S) (σ : S) :
    f.debugPrintE put disp x σ = .fail (.panic "[precondition] the node must be alive") σ := by
  have hn : f.node x = none := by
    unfold Forest.node; rw [hm.isAlive, hx]; rfl
  unfold Forest.debugPrintE
  rw [hn, expect_none]

/-- A formatter that counts its calls and writes the number, on the tree `2 (4 5)` of the sample forest. -/
example (out : Text) : Sample.built.debugPrintE (beside fun out piece => .ok (out ++ piece))
    (numbered (fun c (_ : Nat) => [(toString (c : Nat)).toList]) (fun c _ => c + 1)) 2 (out, 7) =
      .ok (.ok ()) (out ++ "7\n|-- 8\n`-- 9".toList, 10) := by
  have hdat : ∀ y ∈ Sample.tree2.preorder, Sample.built.getData y = some (y + 10) := by decide +kernel
  obtain ⟨W, c', h1, h2, h3, _⟩ := C80_threaded (f := Sample.built) (s := Sample.shape) Sample.models (t := Sample.tree2)
    ⟨rfl, ⟨rfl, trivial⟩, ⟨rfl, trivial⟩, trivial⟩ rfl (fun out piece => .ok (out ++ piece))
    (fun c (_ : Nat) => [(toString (c : Nat)).toList]) (fun c _ => c + 1) (fun y => y + 10) hdat out 7
  rw [feed_string] at h2 h3
  have h4 := h3 rfl
  rw [h1] at h2
  have h5 : Printed.print (Sample.tree2.map fun y => [(toString (((Sample.tree2.preorder.takeWhile (· ≠ y)).map (fun y => y + 10)).foldl
      (fun c _ => c + 1) 7)).toList]) = "7\n|-- 8\n`-- 9".toList := by decide +kernel
  rw [h5, h4] at h2
  exact h2

/-- A formatter that refuses to return from its third call: the diary holds the three calls. -/
example : ∃ log : List (Ev Nat), log ≠ [] ∧ log <+: diary [12, 14, 15] ∧
    Sample.built.debugPrintE (beside fun (n : Nat) _ => .ok n) (watch fun d => if d = 15 then .panic else .write ['x'] fun _ => .ret true) 2
      (0, []) = .fail (.panic "the data's formatter panics") (0, log) := by
  obtain ⟨log, h1, h2, h3, _⟩ := C80_calls (f := Sample.built) (s := Sample.shape) Sample.models (t := Sample.tree2)
    ⟨rfl, ⟨rfl, trivial⟩, ⟨rfl, trivial⟩, trivial⟩ rfl (fun (n : Nat) _ => .ok n)
    (fun d => if d = 15 then .panic else .write ['x'] fun _ => .ret true) 0
  refine ⟨log, h2, ?_, ?_⟩
  · exact h3
  · exact h1

/-! ### The hypotheses can be met

Each example applies the theorem named in its comment to a concrete forest. -/

section
/-- `C80_dead`: the removed node 7. -/
example := C80_dead Sample.models (x := 7) rfl (fun (out : Text) p => .ok (out ++ p)) (fun _ => .ret true) []

/-- `C80_never_panics`: a formatter that writes nothing. -/
example := C80_never_panics Sample.models (x := 0) rfl (fun (out : Text) p => .ok (out ++ p)) (fun _ => .ret true) (fun _ _ _ => trivial) []

end

end Treena
