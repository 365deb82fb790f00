import Verif.Proof.CloneEffect
import Verif.Props.Clone
import Verif.Props.Proxy
import Verif.Props.SampleRun
/-!
# C67: copying when `T::clone` has effects

C28, C29 and C30 are about a `T::clone` that is a function of the cloned value.  Here it may do anything to the rest of the program.
-/
set_option autoImplicit false

namespace Treena
variable {T S : Type} {f : Forest T} {s : Shape} {cap : Nat}

/-- **C67**, `clone_local_tree_with_id_mapping`: whatever `T::clone` and the callback do, the calls of them, their order and
arguments, the panic the call ends with (if any), the nodes made and their data are those of `replay`; the rest of the forest is untouched. -/
theorem C67_local (hm : Models f s) {x : Nat} (hx : s.alive x = true) {t : Tree Nat} (ht : Tree.IsTree s.kids t) (hroot : t.root = x)
    (cl : Forest.CloneFn S T) (hook : Forest.MapHook S) (σ : S) :
    CopiedBy f s cap cl hook f.getData t σ (Forest.cloneLocalTreeWithIdMappingE cap cl hook x (f, σ)) := by
  subst hroot
  exact cloneLocalE_spec hm ht hx σ

/-- **C67**, `clone_foreign_tree_with_id_mapping`. -/
theorem C67_foreign {fs : Forest T} {ss : Shape} (hm : Models f s) (hms : Models fs ss) {x : Nat} (hx : ss.alive x = true) {t : Tree Nat}
    (ht : Tree.IsTree ss.kids t) (hroot : t.root = x) (cl : Forest.CloneFn S T) (hook : Forest.MapHook S) (σ : S) :
    CopiedBy f s cap cl hook fs.getData t σ (Forest.cloneForeignTreeWithIdMappingE cap cl hook fs x (f, σ)) := by
  subst hroot
  exact cloneForeignE_spec hm hms ht hx σ

/-- **C67**, without effects: these functions are those of C28–C30, on every forest (also on corrupted ones). -/
theorem C67_without_effects (cl : T → Option T) (hook : Forest.MapHook S) (x : Nat) (f fs : Forest T) (σ : S) :
    Forest.cloneLocalTreeWithIdMappingE cap (Forest.pureClone cl) hook x (f, σ) =
      Forest.cloneLocalTreeWithIdMapping cap cl hook x (f, σ) ∧
    Forest.cloneForeignTreeWithIdMappingE cap (Forest.pureClone cl) hook fs x (f, σ) =
      Forest.cloneForeignTreeWithIdMapping cap cl hook fs x (f, σ) :=
  ⟨cloneLocalE_pure cap cl hook x (f, σ), by rw [cloneForeignE_pure]⟩

/-- A dead or unknown source: a panic before `T::clone` or the callback is called. -/
theorem C67_dead (hm : Models f s) {x : Nat} (hx : s.alive x = false) (cl : Forest.CloneFn S T) (hook : Forest.MapHook S) (σ : S) :
    Forest.cloneLocalTreeWithIdMappingE cap cl hook x (f, σ) = .fail (.panic "[consistency] the node must be alive") (f, σ) := by
  have hd : f.getData x = none := by
    cases h : f.getData x with
    | none => rfl
    | some d =>
      have := hm.dataAlive x
      rw [hx, h] at this
      cases this
  unfold Forest.cloneLocalTreeWithIdMappingE
  rw [M.run_bind]
  simp only [M.read]
  rw [M.run_bind]
  have hrd : (M.read (fun p : Forest T × S => expect (p.1.getData x) "[consistency] the node must be alive")) (f, σ) =
      Res.fail (.panic "[consistency] the node must be alive") (f, σ) := by simp [M.read, hd, expect]
  rw [hrd]

theorem replay_notes (c : T → T) : ∀ (l : List (Nat × T)) (n : Nat) (σ : List (Seen T)), n + l.length ≤ cap →
    replay cap (noteClone c) noteMap n σ l = (l.map fun q => c q.2, σ ++ notes n l, none) := by
  intro l
  induction l with
  | nil => intro n σ _; simp [replay, notes]
  | cons q l ih =>
    intro n σ h
    obtain ⟨y, d⟩ := q
    simp only [List.length_cons] at h
    simp only [replay, noteClone, noteMap]
    rw [if_neg (by omega)]
    have := ih (n + 1) (σ ++ [.cloned d] ++ [.mapped y n]) (by omega)
    rw [this]
    simp [notes]

theorem notes_outcome {fs : Forest T} {ss : Shape} {t : Tree Nat} {c : T → T} {σ : List (Seen T)}
    {run : Res (Forest T × List (Seen T)) Nat} (hm : Models f s) (hms : Models fs ss)
    (ht : Tree.IsTree ss.kids t) (hx : ss.alive t.root = true) (hcap : s.size + t.count ≤ cap)
    (h : CopiedBy f s cap (noteClone c) noteMap fs.getData t σ run) :
    ∃ g s', run = .ok s.size (g, σ ++ notes s.size (withData fs.getData t.preorder)) ∧ Grown f s g s' ∧
      Tree.IsTree s'.kids (t.number s.size) ∧
      (t.number s.size).preorder.map g.getData = t.preorder.map fun y => (fs.getData y).map c := by
  have hall : ∀ y ∈ t.preorder, ∃ d, fs.getData y = some d := fun y hy =>
    data_some hms (Tree.mem_alive hms.valid ht hx hy)
  have hl : (withData fs.getData t.preorder).length = t.count := by
    rw [length_withData hall, Tree.length_preorder]
  obtain ⟨g, s', h1, h2, h3, h4, h5, h6⟩ := h
  rw [replay_notes c _ _ _ (by omega)] at h1 h3 h4 h6
  simp only [List.length_map, hl] at h3 h6
  obtain ⟨h7, _⟩ := h6 t (by rw [Tree.trunc_all t (Nat.le_refl _)]; simp)
  refine ⟨g, s', h1, h2, h7, ?_⟩
  have hlen : f.data.length = s.size := hm.dataLen
  have hw : ∀ ys : List Nat, (∀ y ∈ ys, ∃ d, fs.getData y = some d) →
      ((withData fs.getData ys).map fun q => c q.2).map some = ys.map fun y => (fs.getData y).map c := by
    intro ys
    induction ys with
    | nil => intro _; rfl
    | cons y ys ih =>
      intro h
      obtain ⟨d, hd⟩ := h y (by simp)
      have := ih fun y hy => h y (by simp [hy])
      simpa [withData, hd] using this
  rw [hw _ hall] at h4
  rw [Tree.preorder_number]
  apply List.ext_getElem
  · simp [Tree.length_preorder]
  intro i h8 h9
  simp only [List.getElem_map, List.getElem_range', Forest.getData, h4]
  simp only [List.length_map] at h9
  rw [List.getElem?_append_right (by omega), hlen, show s.size + 1 * i - s.size = i by omega]
  rw [List.getElem?_map, List.getElem?_eq_getElem h9]
  rfl

/-- **C67**, in particular: if there are enough IDs, `T::clone` and the callback are called in turn, once for each node of
the tree, in preorder, the callback with the node and its copy. -/
theorem C67_log_local (hm : Models f s) {x : Nat} (hx : s.alive x = true) {t : Tree Nat} (ht : Tree.IsTree s.kids t)
    (hroot : t.root = x) (hcap : s.size + t.count ≤ cap) (c : T → T) (log : List (Seen T)) :
    ∃ g s', Forest.cloneLocalTreeWithIdMappingE cap (noteClone c) noteMap x (f, log) =
        .ok s.size (g, log ++ notes s.size (withData f.getData t.preorder)) ∧ Grown f s g s' ∧
      Tree.IsTree s'.kids (t.number s.size) ∧
      (t.number s.size).preorder.map g.getData = t.preorder.map fun y => (f.getData y).map c := by
  subst hroot
  exact notes_outcome hm hm ht hx hcap (cloneLocalE_spec hm ht hx log)

/-- **C67**, the same for `clone_foreign_tree_with_id_mapping`. -/
theorem C67_log_foreign {fs : Forest T} {ss : Shape} (hm : Models f s) (hms : Models fs ss) {x : Nat} (hx : ss.alive x = true) {t : Tree Nat}
    (ht : Tree.IsTree ss.kids t) (hroot : t.root = x) (hcap : s.size + t.count ≤ cap) (c : T → T) (log : List (Seen T)) :
    ∃ g s', Forest.cloneForeignTreeWithIdMappingE cap (noteClone c) noteMap fs x (f, log) =
        .ok s.size (g, log ++ notes s.size (withData fs.getData t.preorder)) ∧ Grown f s g s' ∧
      Tree.IsTree s'.kids (t.number s.size) ∧
      (t.number s.size).preorder.map g.getData = t.preorder.map fun y => (fs.getData y).map c := by
  subst hroot
  exact notes_outcome hm hms ht hx hcap (cloneForeignE_spec hm hms ht hx log)

/-! ### `Forest::clone` -/

theorem cloneDataE_spec (cl : Forest.CloneFn S T) : ∀ (l : List (Option T)) (σ : S),
    match cloneAll cl σ (l.filterMap id) with
    | .error σ' => Forest.cloneDataE cl σ l = .error σ'
    | .ok (cs, σ') => ∃ l', Forest.cloneDataE cl σ l = .ok (l', σ') ∧ l'.filterMap id = cs ∧ l'.map Option.isSome = l.map Option.isSome := by
  intro l
  induction l with
  | nil => intro σ; exact ⟨[], rfl, rfl, rfl⟩
  | cons o l ih =>
    intro σ
    cases o with
    | none =>
      have := ih σ
      rw [show (none :: l).filterMap id = l.filterMap id from rfl]
      simp only [Forest.cloneDataE]
      cases h : cloneAll cl σ (l.filterMap id) with
      | error σ' => rw [h] at this; simp only at this ⊢; rw [this]
      | ok r =>
        rw [h] at this
        obtain ⟨l', h1, h2, h3⟩ := this
        exact ⟨none :: l', by rw [h1], by simpa using h2, by simp [h3]⟩
    | some d =>
      rw [show (some d :: l).filterMap id = d :: l.filterMap id from rfl]
      simp only [Forest.cloneDataE, cloneAll]
      cases cl σ d with
      | error σ' => rfl
      | ok r =>
        obtain ⟨c, σ1⟩ := r
        have := ih σ1
        simp only
        cases h : cloneAll cl σ1 (l.filterMap id) with
        | error σ' => rw [h] at this; simp only at this ⊢; rw [this]
        | ok r =>
          rw [h] at this
          obtain ⟨l', h1, h2, h3⟩ := this
          exact ⟨some c :: l', by rw [h1], by simpa using h2, by simp [h3]⟩

/-- Data in the order of the IDs. -/
theorem filterMap_data (g : Forest T) : (List.range g.data.length).filterMap g.getData = g.data.filterMap id := by
  have : (List.range g.data.length).map g.getData = g.data := by
    apply List.ext_getElem
    · simp
    intro i h1 h2
    simp only [List.getElem_map, List.getElem_range, Forest.getData]
    rw [List.getElem?_eq_getElem h2]
    rfl
  conv => rhs; rw [← this, List.filterMap_map]
  rfl

theorem live_data (hm : Models f s) : (s.live.map f.getData) = (f.data.filterMap id).map some := by
  rw [← filterMap_data, hm.dataLen]
  unfold Shape.live
  generalize List.range s.size = l
  induction l with
  | nil => rfl
  | cons x l ih =>
    cases hx : s.alive x with
    | true =>
      obtain ⟨d, hd⟩ := data_some hm hx
      simp [hx, hd, ih]
    | false =>
      have hd : f.getData x = none := by
        cases h : f.getData x with
        | none => rfl
        | some d =>
          have := hm.dataAlive x
          rw [hx, h] at this
          cases this
      simp [hx, hd, ih]

/-- **C67**, `Forest::clone`: `T::clone` is called once for each live node, in the order of the IDs (`ds` are the data in this order), until it panics; if it does
not panic, the result has the shape of the forest, and the data `T::clone` gave. -/
theorem C67_forest_clone (hm : Models f s) (cl : Forest.CloneFn S T) (σ : S) :
    ∃ ds, s.live.map f.getData = ds.map some ∧
    match cloneAll cl σ ds with
    | .error σ' => Forest.cloneE cl σ f = .error σ'
    | .ok (cs, σ') => ∃ g, Forest.cloneE cl σ f = .ok (g, σ') ∧ Models g s ∧ s.live.map g.getData = cs.map some := by
  refine ⟨_, live_data hm, ?_⟩
  have h := cloneDataE_spec cl f.data σ
  unfold Forest.cloneE
  cases hc : cloneAll cl σ (f.data.filterMap id) with
  | error σ' => rw [hc] at h; simp only at h ⊢; rw [h]
  | ok r =>
    obtain ⟨cs, σ'⟩ := r
    rw [hc] at h
    obtain ⟨l', h1, h2, h3⟩ := h
    simp only
    have hg : ∀ x, (Forest.getData ⟨f.hier, l'⟩ x).isSome = (f.getData x).isSome := by
      intro x
      have : (l'.map Option.isSome)[x]? = (f.data.map Option.isSome)[x]? := by rw [h3]
      simp only [List.getElem?_map] at this
      simp only [Forest.getData]
      cases h4 : l'[x]? with
      | none => rw [h4] at this; cases h5 : f.data[x]? with
        | none => rfl
        | some o => rw [h5] at this; cases this
      | some o => rw [h4] at this; cases h5 : f.data[x]? with
        | none => rw [h5] at this; cases this
        | some o' => rw [h5] at this; simpa using this
    have hmg : Models ⟨f.hier, l'⟩ s := by
      refine .of_agrees hm.valid hm.agrees ?_ ?_
      · have : l'.length = f.data.length := by simpa using congrArg List.length h3
        show l'.length = s.size
        rw [this, hm.dataLen]
      · intro x; rw [hg]; exact hm.dataAlive x
    refine ⟨⟨f.hier, l'⟩, by rw [h1], hmg, ?_⟩
    rw [live_data hmg, h2]

theorem cloneDataE_pure (cl : T → Option T) (σ : S) : ∀ l : List (Option T),
    Forest.cloneDataE (Forest.pureClone cl) σ l =
      if l.all fun o => (o.map fun d => (cl d).isSome).getD true then .ok (l.map (·.bind cl), σ) else .error σ := by
  intro l
  induction l with
  | nil => rfl
  | cons o l ih =>
    cases o with
    | none =>
      rw [Forest.cloneDataE, ih]
      by_cases h : (l.all fun o => (o.map fun d => (cl d).isSome).getD true) = true
      · rw [if_pos h, if_pos (by simpa using h)]; rfl
      · rw [if_neg h, if_neg (by simpa using h)]
    | some d =>
      have hp : Forest.pureClone cl σ d = match cl d with | some c => .ok (c, σ) | none => .error σ := rfl
      rw [Forest.cloneDataE, hp]
      cases hc : cl d with
      | none => simp [hc]
      | some c =>
        simp only
        rw [ih]
        by_cases h : (l.all fun o => (o.map fun d => (cl d).isSome).getD true) = true
        · rw [if_pos h, if_pos (by simpa [hc] using h)]; simp [hc]
        · rw [if_neg h, if_neg (by simpa [hc] using h)]

/-- `Forest::clone` without effects is that of C51. -/
theorem C67_forest_without_effects (cl : T → Option T) (σ : S) (f : Forest T) :
    Forest.cloneE (Forest.pureClone cl) σ f =
      match f.tryClone cl with
      | .ok g => .ok (g, σ)
      | .error _ => .error σ := by
  unfold Forest.cloneE Forest.tryClone
  rw [cloneDataE_pure]
  by_cases h : (f.data.all fun o => (o.map fun d => (cl d).isSome).getD true) = true
  · rw [if_pos h, if_pos h]
  · rw [if_neg h, if_neg h]

/-! ### The sample -/

/-- The tree of node 2 gets copied: the notes of a `T::clone` and a callback sharing a list. -/
example : ∃ g s', Forest.cloneLocalTreeWithIdMappingE 100 (noteClone (· + 100)) noteMap 2 (Sample.built, []) =
      .ok 8 (g, [.cloned 12, .mapped 2 8, .cloned 14, .mapped 4 9, .cloned 15, .mapped 5 10]) ∧
    Grown Sample.built Sample.shape g s' ∧ [8, 9, 10].map g.getData = [some 112, some 114, some 115] := by
  obtain ⟨g, s', h1, h2, _, h4⟩ := C67_log_local (cap := 100) Sample.models (x := 2) rfl
    Sample.isTree2 rfl (by decide) (· + 100) []
  exact ⟨g, s', h1, h2, h4⟩

/-- A `T::clone` that numbers its results, and panics the third time: two nodes get made. -/
example : ∃ g s', Forest.cloneForeignTreeWithIdMappingE 100
      (fun n (_ : Nat) => if n = 2 then .error n else .ok (n, n + 1)) (fun n _ _ => .ok n) Sample.built 2 (Forest.new, 0) =
      .fail clonePanic (g, 2) ∧ Grown Forest.new Shape.empty g s' ∧ s'.size = 2 ∧ g.data = [some 0, some 1] := by
  obtain ⟨g, s', h1, h2, h3, h4, _⟩ := C67_foreign (cap := 100) Sample.new_models Sample.models (x := 2) rfl
    Sample.isTree2 rfl
    (fun n (_ : Nat) => if n = 2 then .error n else .ok (n, n + 1)) (fun n _ _ => .ok n) 0
  exact ⟨g, s', h1, h2, h3, h4⟩

/-- A `T::clone` that numbers its results. -/
example : ∃ g, Forest.cloneE (fun n (_ : Nat) => .ok (n, n + 1)) 0 Sample.built = .ok (g, 7) ∧
    [0, 1, 2, 3, 4, 5, 6].map g.getData = [some 0, some 1, some 2, some 3, some 4, some 5, some 6] :=
  ⟨_, rfl, by decide⟩

/-! ### The hypotheses can be met

Each example applies the theorem named in its comment to a concrete forest. -/

section
/-- `C67_dead`: the removed node 7. -/
example := C67_dead (cap := 100) Sample.models (x := 7) rfl (fun (k : Nat) d => .ok (d, k)) (fun k _ _ => .ok k) 0

/-- `C67_forest_clone`: a `T::clone` that panics at the third call. -/
example := C67_forest_clone Sample.models (fun (k : Nat) d => if k = 2 then .error k else .ok (d, k + 1)) 0

/-- `C67_local`: the same `T::clone`. -/
example := C67_local (cap := 100) Sample.models (x := 0) rfl Sample.isTree rfl (fun (k : Nat) d => if k = 2 then .error k else .ok (d, k + 1)) (fun k _ _ => .ok k) 0

/-- `C67_log_foreign`: the tree of node 2 into an empty forest. -/
example := C67_log_foreign (T := Nat) (cap := 3) Sample.new_models Sample.models (x := 2) rfl Sample.isTree2 rfl (by decide) id []

end

end Treena
