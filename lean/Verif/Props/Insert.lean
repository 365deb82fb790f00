import Verif.Proof.InPlace
import Verif.Proof.ErrKeeps
import Verif.Props.Sample
import Verif.Props.SampleRun
/-!
# Properties of `Forest::insert` (C07 – C11, C39, part of C36)

`Models f s` says that the forest value `f` stores the ordered forest `s` (see `Spec/Models.lean`);
`C05_*` shows that it holds, for some `s`, after every history without the misuse described there. -/
set_option autoImplicit false

namespace Treena
open Shape
variable {T : Type} {f : Forest T} {s : Shape}

/-- **C07** (partial).  `insert(x, dest)` on live nodes, where the prospective parent `P` exists and is
neither `x` nor below `x`, and `x` is not yet at `dest`: succeeds, `x` then is at `dest`, its parent is
`P`, no other node changes its parent, every child list is unchanged up to taking `x` out / putting it
in, the subtree of `x` is unchanged, and so are all data.

Missing for the full claim: requests where `x` already is at `dest`; for those the claim is
false, see `C08_insert_in_place_corrupts`. -/
theorem C07_insert_moves_partial (hm : Models f s) {x P : Nat} {d : InsertAs}
    (hx : s.alive x = true) (hanch : s.alive d.place.anchor = true)
    (hne : d ≠ .previousSiblingOf x ∧ d ≠ .nextSiblingOf x)
    (hpp : s.placeParent d.place = some P) (hcyc : ¬ AncOrSelf s.parent x P)
    (hat : ¬ s.At x d.place) :
    ∃ f' s', Forest.insert x d f = .ok (.ok ()) f' ∧ Models f' s' ∧ Describes f' s' ∧
      f'.data = f.data ∧ s'.size = s.size ∧ s'.alive = s.alive ∧
      s'.At x d.place ∧
      (∀ y, s'.parent y = if y = x then some P else s.parent y) ∧
      (∀ q, (s'.kids q).erase x = (s.kids q).erase x) ∧
      (∀ t : Tree Nat, Tree.IsTree s.kids t → t.root = x → Tree.IsTree s'.kids t) := by
  obtain ⟨f', h1, h2, h3⟩ := forest_insert_models hm hx hanch (place_ne hne) hpp hcyc hat
  obtain ⟨h4, h5, h6⟩ := hm.valid.move_facts hpp (place_ne hne) hat h2.valid
  exact ⟨f', _, h1, h2, h2.describes, h3, move_size s x _, move_alive s x _, h6, h4, h5,
    fun t ht hr => hm.valid.move_subtree hpp hcyc ht hr⟩

/-- The hypotheses of C07 hold e.g. for moving the subtree `2 [4, 5]` of the sample in front of `1`, and
for moving it below `6`. -/
example : ∃ f', Forest.insert 2 (.previousSiblingOf 1) Sample.built = .ok (.ok ()) f' := by
  obtain ⟨f', _, h, _⟩ := C07_insert_moves_partial Sample.models (x := 2) (P := 0) (d := .previousSiblingOf 1)
    rfl rfl (by simp) rfl (by
      intro h
      cases h with
      | step h _ => simp [Sample.shape, Sample.parent] at h) (by simp [InsertAs.place, Shape.At, Shape.prev, Shape.sibs,
        Sample.shape, Sample.parent, Sample.kids, before])
  exact ⟨f', h⟩

/-- **C08** (partial): the one in-place request that behaves: `insert(x, FirstChildOf(p))` where `x` is
the only child of `p` succeeds and leaves the forest exactly as it was.

Missing for the full claim: all other in-place requests, for which it is false
(`C08_insert_in_place_corrupts`). -/
theorem C08_insert_only_child_first_partial (hm : Models f s) {x P : Nat} (hk : s.kids P = [x]) :
    Forest.insert x (.firstChildOf P) f = .ok (.ok ()) f := by
  obtain ⟨f', h1, _, h2, _⟩ := inplace_first hm hk
  rw [h1, h2 rfl]

/-- **C08 is false of the code**, and in every other case: if `x` already is at the requested place
(and the request is not `FirstChildOf` of an only child), then after `insert(x, dest)` — whether it
returns or panics — the answers of the public accessors contradict each other. -/
theorem C08_insert_in_place_corrupts (hm : Models f s) {x : Nat} {d : InsertAs} (hat : s.At x d.place)
    (hno : ¬ ∃ P, d = .firstChildOf P ∧ s.kids P = [x]) :
    Undescribable (Forest.insert x d f).state ∧ ¬ Consistent (Forest.insert x d f).state :=
  ⟨inplace_undescribable hm hat hno, (inplace_undescribable hm hat hno).not_consistent⟩

/-- The contradiction in each of the in-place cases, in terms of the accessors. -/
theorem C08_insert_in_place_details (hm : Models f s) {P x y p : Nat} {A B : List Nat} :
    (s.kids P = x :: y :: B → ∃ f', Forest.insert x (.firstChildOf P) f = .ok (.ok ()) f' ∧
      f'.nextSiblingId x = .ok (some y) ∧ f'.prevSiblingId y = .ok none) ∧
    (s.kids P = A ++ [p, x] → ∃ f', Forest.insert x (.lastChildOf P) f = .ok (.ok ()) f' ∧
      f'.lastChildId P = .ok (some x) ∧ f'.parentId p = .ok (some P) ∧ f'.nextSiblingId p = .ok none) ∧
    (s.kids P = [x] → ∃ msg f', Forest.insert x (.lastChildOf P) f = .fail (.panic msg) f' ∧
      f'.firstChildId P = .ok none ∧ f'.parentId x = .ok (some P)) ∧
    (s.kids P = A ++ p :: x :: y :: B → ∃ f', Forest.insert x (.previousSiblingOf y) f = .ok (.ok ()) f' ∧
      f'.nextSiblingId p = .ok (some y) ∧ f'.prevSiblingId y = .ok (some x)) ∧
    (s.kids P = A ++ p :: x :: y :: B → ∃ f', Forest.insert x (.nextSiblingOf p) f = .ok (.ok ()) f' ∧
      f'.nextSiblingId x = .ok (some y) ∧ f'.prevSiblingId y = .ok (some p)) := by
  refine ⟨fun hk => ?_, fun hk => ?_, fun hk => ?_, fun hk => ?_, fun hk => ?_⟩
  · obtain ⟨f', h1, _, _, h2⟩ := inplace_first hm hk
    exact ⟨f', h1, h2 y B rfl⟩
  · obtain ⟨f', h1, _, h2, h3, h4, _⟩ := inplace_last hm hk
    exact ⟨f', h1, h2, h3, h4⟩
  · obtain ⟨f', h1, _, h2⟩ := inplace_last_only hm hk
    exact ⟨_, f', h1, h2⟩
  · obtain ⟨f', h1, _, h2, h3, _⟩ := inplace_before hm (A := A ++ [p]) (x := x) (a := y) (B := B) (by rw [hk]; simp)
    exact ⟨f', h1, (h3 A p rfl).1, h2⟩
  · obtain ⟨f', h1, _, _, h3, _⟩ := inplace_after hm hk
    exact ⟨f', h1, (h3 y B rfl).1, (h3 y B rfl).2.1⟩

/-- In the sample, `1` is the first and `3` the last child of `0`, and `2` lies between them. -/
example : Undescribable (Forest.insert 1 (.firstChildOf 0) Sample.built).state ∧
    Undescribable (Forest.insert 3 (.lastChildOf 0) Sample.built).state ∧
    Undescribable (Forest.insert 2 (.previousSiblingOf 3) Sample.built).state ∧
    Undescribable (Forest.insert 2 (.nextSiblingOf 1) Sample.built).state := by
  refine ⟨?_, ?_, ?_, ?_⟩ <;>
    refine (C08_insert_in_place_corrupts Sample.models ?_ ?_).1 <;>
    simp [InsertAs.place, Shape.At, Shape.prev, Shape.next, Shape.first, Shape.last, Shape.sibs,
        Sample.shape, Sample.parent, Sample.kids, before, after]

/-- A node that is already at a place has a parent of its own there, hence is not above that place. -/
theorem at_not_loop (hv : s.Valid) {x P : Nat} {pl : Place} (hat : s.At x pl)
    (hpp : s.placeParent pl = some P) : ¬ AncOrSelf s.parent x P := by
  obtain ⟨P', A, B, hpp', hk, _⟩ := hv.at_split hat
  rw [hpp] at hpp'; cases hpp'
  exact (hv.rooted x).acyclic (hv.kid_parent (by rw [hk]; simp))

/-- An in-place request returns `Ok` or panics. -/
theorem inplace_not_err (hm : Models f s) {x : Nat} {d : InsertAs} (hat : s.At x d.place) (e : StructureError)
    (f' : Forest T) : Forest.insert x d f ≠ .ok (.error e) f' := by
  obtain ⟨P, A, B, h2, _, _, _, _, hrun⟩ := inplace_run hm hat
  rw [hrun]
  split <;> simp

/-- **C09** (partial).  For live `x` and anchor: `Err(UnorderableSiblings)` is returned exactly when a sibling
position relative to `x` itself is requested; `Err(AncestorDescendantLoop)` exactly when (otherwise) the
prospective parent is `x` or below `x`; if neither applies, the prospective parent exists and `x` is
not yet at the place, the call returns `Ok`.

Missing for the full claim: the call with `x` already at the place returns `Ok`; this is false for
`LastChildOf` of an only child (`C08_insert_in_place_details`, third part), and true otherwise
(`C09_insert_in_place_result`). -/
theorem C09_insert_errors_partial (hm : Models f s) {x : Nat} {d : InsertAs}
    (hx : s.alive x = true) (hanch : s.alive d.place.anchor = true) :
    ((∃ f', Forest.insert x d f = .ok (.error .unorderableSiblings) f') ↔
      d = .previousSiblingOf x ∨ d = .nextSiblingOf x) ∧
    ((∃ f', Forest.insert x d f = .ok (.error .ancestorDescendantLoop) f') ↔
      ¬ (d = .previousSiblingOf x ∨ d = .nextSiblingOf x) ∧
        ∃ P, s.placeParent d.place = some P ∧ AncOrSelf s.parent x P) ∧
    (∀ P, ¬ (d = .previousSiblingOf x ∨ d = .nextSiblingOf x) → s.placeParent d.place = some P →
      ¬ AncOrSelf s.parent x P → ¬ s.At x d.place → ∃ f', Forest.insert x d f = .ok (.ok ()) f') := by
  by_cases hu : d = .previousSiblingOf x ∨ d = .nextSiblingOf x
  · have := forest_insert_unorderable f hu
    refine ⟨⟨fun _ => hu, fun _ => ⟨_, this⟩⟩, ⟨fun ⟨f', h⟩ => ?_, fun h => absurd hu h.1⟩, fun P h => absurd hu h⟩
    rw [this] at h; cases h
  · have hne : d ≠ .previousSiblingOf x ∧ d ≠ .nextSiblingOf x := not_or.1 hu
    cases hpp : s.placeParent d.place with
    | none =>
      have := forest_insert_rootSibling hm hx hanch hne hpp
      refine ⟨⟨fun ⟨f', h⟩ => ?_, fun h => absurd h hu⟩, ⟨fun ⟨f', h⟩ => ?_, fun ⟨_, P, h, _⟩ => ?_⟩, fun P _ h => ?_⟩
      · rw [this] at h; cases h
      · rw [this] at h; cases h
      · cases h
      · cases h
    | some P =>
      by_cases hcyc : AncOrSelf s.parent x P
      · have := forest_insert_loop hm hx hanch hne hpp hcyc
        refine ⟨⟨fun ⟨f', h⟩ => ?_, fun h => absurd h hu⟩, ⟨fun _ => ⟨hu, P, rfl, hcyc⟩, fun _ => ⟨_, this⟩⟩,
          fun P' _ h hc => ?_⟩
        · rw [this] at h; cases h
        · cases h; exact absurd hcyc hc
      · by_cases hat : s.At x d.place
        · refine ⟨⟨fun ⟨f', h⟩ => absurd h (inplace_not_err hm hat _ _), fun h => absurd h hu⟩,
            ⟨fun ⟨f', h⟩ => absurd h (inplace_not_err hm hat _ _), fun ⟨_, P', h, hc⟩ => ?_⟩, fun P' _ _ _ h => absurd hat h⟩
          cases h; exact absurd hc hcyc
        · obtain ⟨f', h1, _⟩ := forest_insert_models hm hx hanch (place_ne hne) hpp hcyc hat
          refine ⟨⟨fun ⟨f', h⟩ => ?_, fun h => absurd h hu⟩, ⟨fun ⟨f', h⟩ => ?_, fun ⟨_, P', h, hc⟩ => ?_⟩,
            fun _ _ _ _ _ => ⟨f', h1⟩⟩
          · rw [h1] at h; cases h
          · rw [h1] at h; cases h
          · cases h; exact absurd hc hcyc

/-- The result of an in-place request: `Ok`, except for `LastChildOf` of an only child, which panics. -/
theorem C09_insert_in_place_result (hm : Models f s) {x : Nat} {d : InsertAs} (hat : s.At x d.place) :
    ((∃ P, d = .lastChildOf P ∧ s.kids P = [x]) ∧ ∃ msg f', Forest.insert x d f = .fail (.panic msg) f') ∨
    ((¬ ∃ P, d = .lastChildOf P ∧ s.kids P = [x]) ∧ ∃ f', Forest.insert x d f = .ok (.ok ()) f') := by
  have hv := hm.valid
  obtain ⟨P, A, B, hpp, hk, hcase⟩ := hv.at_split hat
  cases d with
  | firstChildOf a =>
    obtain ⟨rfl, rfl⟩ := hcase
    refine .inr ⟨by simp, ?_⟩
    obtain ⟨f', h, _⟩ := inplace_first hm hk
    exact ⟨f', h⟩
  | lastChildOf a =>
    obtain ⟨rfl, rfl⟩ := hcase
    rcases snoc_cases A with e | ⟨A', p, e⟩
    · subst e
      refine .inl ⟨⟨a, rfl, hk⟩, ?_⟩
      obtain ⟨f', h, _⟩ := inplace_last_only hm hk
      exact ⟨_, f', h⟩
    · subst e
      refine .inr ⟨(by
        rintro ⟨Q, hQ, hQ'⟩; cases hQ
        rw [hk] at hQ'
        have := congrArg List.length hQ'; simp at this), ?_⟩
      obtain ⟨f', h, _⟩ := inplace_last hm (A := A') (p := p) (x := x) (P := a) (by rw [hk]; simp)
      exact ⟨f', h⟩
  | previousSiblingOf a =>
    obtain ⟨B', rfl⟩ := hcase
    refine .inr ⟨by simp, ?_⟩
    obtain ⟨f', h, _⟩ := inplace_before hm hk
    exact ⟨f', h⟩
  | nextSiblingOf a =>
    obtain ⟨A', rfl⟩ := hcase
    refine .inr ⟨by simp, ?_⟩
    obtain ⟨f', h, _⟩ := inplace_after hm (A := A') (a := a) (x := x) (B := B) (P := P) (by rw [hk]; simp)
    exact ⟨f', h⟩

/-- Moving `2` below its child `4` is refused. -/
example : ∃ f', Forest.insert 2 (.lastChildOf 4) Sample.built = .ok (.error .ancestorDescendantLoop) f' :=
  (C09_insert_errors_partial Sample.models (x := 2) (d := .lastChildOf 4) rfl rfl).2.1.2
    ⟨by simp, 4, rfl, .step (p := 2) rfl .refl⟩

/-- **C10**.  In any state whatsoever: if `insert`, `try_adopt` or `detach_single` returns `Err`, the
forest is exactly what it was. -/
theorem C10_err_leaves_unchanged (f f' : Forest T) (e : StructureError) :
    (∀ x d, Forest.insert x d f = .ok (.error e) f' → f' = f) ∧
    (∀ self x d, NodeMut.tryAdopt self x d f = .ok (.error e) f' → f' = f) ∧
    (∀ x, Forest.detachSingle x f = .ok (.error e) f' → f' = f) ∧
    (∀ self, NodeMut.detachSingle self f = .ok (.error e) f' → f' = f) :=
  ⟨fun x d h => onHier_errKeeps (Hier.insert_errKeeps x d) f e f' h,
   fun self x d h => onHier_errKeeps (Hier.insert_errKeeps x (d.insertWithAnchor self)) f e f' h,
   fun x h => onHier_errKeeps (Hier.detachSingle_errKeeps x) f e f' h,
   fun x h => onHier_errKeeps (Hier.detachSingle_errKeeps x) f e f' h⟩

/-- Each of the three errors does occur. -/
example : (∃ f', Forest.insert 2 (.lastChildOf 4) Sample.built = .ok (.error .ancestorDescendantLoop) f') ∧
    (∃ f', Forest.insert 2 (.nextSiblingOf 2) Sample.built = .ok (.error .unorderableSiblings) f') ∧
    (∃ f', Forest.detachSingle 0 Sample.built = .ok (.error .siblingsWithoutParent) f') :=
  ⟨(C09_insert_errors_partial Sample.models (x := 2) (d := .lastChildOf 4) rfl rfl).2.1.2
    ⟨by simp, 4, rfl, .step (p := 2) rfl .refl⟩,
   ⟨_, forest_insert_unorderable _ (.inr rfl)⟩,
   ⟨_, forest_detachSingle_root_many Sample.models rfl rfl (by simp [Sample.shape, Sample.kids])⟩⟩

/-- **C11** (partial): requesting a sibling of a root `r` other than `x` changes nothing.

Missing: the claim also says that `Err(SiblingsWithoutParent)` is returned, but the code panics:
`C11_sibling_of_root_panics`. -/
theorem C11_sibling_of_root_unchanged_partial (hm : Models f s) {x r : Nat} (hx : s.alive x = true)
    (hr : s.alive r = true) (hroot : s.parent r = none) (hne : x ≠ r) :
    (Forest.insert x (.previousSiblingOf r) f).state = f ∧ (Forest.insert x (.nextSiblingOf r) f).state = f := by
  have h1 := forest_insert_rootSibling hm (x := x) (d := .previousSiblingOf r) hx hr
    ⟨fun e => hne (by cases e; rfl), fun e => (by cases e)⟩ hroot
  have h2 := forest_insert_rootSibling hm (x := x) (d := .nextSiblingOf r) hx hr
    ⟨fun e => (by cases e), fun e => hne (by cases e; rfl)⟩ hroot
  rw [h1, h2]; exact ⟨rfl, rfl⟩

/-- **C11 is false of the code**: a sibling of a root is never reported as `SiblingsWithoutParent`; the
call panics. -/
theorem C11_sibling_of_root_panics (hm : Models f s) {x r : Nat} (hx : s.alive x = true)
    (hr : s.alive r = true) (hroot : s.parent r = none) (hne : x ≠ r) :
    Forest.insert x (.previousSiblingOf r) f =
      .fail (.panic "[precondition] the parent must be alive to have siblings") f ∧
    Forest.insert x (.nextSiblingOf r) f =
      .fail (.panic "[precondition] the parent must be alive to have siblings") f :=
  ⟨forest_insert_rootSibling hm (d := .previousSiblingOf r) hx hr
    ⟨fun e => hne (by cases e; rfl), fun e => (by cases e)⟩ hroot,
   forest_insert_rootSibling hm (d := .nextSiblingOf r) hx hr
    ⟨fun e => (by cases e), fun e => hne (by cases e; rfl)⟩ hroot⟩

example : Forest.insert 2 (.nextSiblingOf 6) Sample.built =
    .fail (.panic "[precondition] the parent must be alive to have siblings") Sample.built :=
  (C11_sibling_of_root_panics Sample.models (x := 2) (r := 6) rfl rfl rfl (by decide)).2

/-- After an `insert(x, dest)` (of a node not already at `dest`), `detach(x)` gives the very forest that
`detach(x)` alone gives on the original forest. -/
theorem insert_then_detach (hm : Models f s) {x P : Nat} {d : InsertAs}
    (hx : s.alive x = true) (hanch : s.alive d.place.anchor = true)
    (hne : d ≠ .previousSiblingOf x ∧ d ≠ .nextSiblingOf x)
    (hpp : s.placeParent d.place = some P) (hcyc : ¬ AncOrSelf s.parent x P)
    (hat : ¬ s.At x d.place) :
    ∃ f1 f2, Forest.insert x d f = .ok (.ok ()) f1 ∧ Forest.detach x f1 = .ok () f2 ∧
      Forest.detach x f = .ok () f2 := by
  obtain ⟨f1, h1, h2, h3⟩ := forest_insert_models hm hx hanch (place_ne hne) hpp hcyc hat
  obtain ⟨hpar, hkids, _⟩ := hm.valid.move_facts hpp (place_ne hne) hat h2.valid
  obtain ⟨f2, h4, h5, h6⟩ := forest_detach_models h2 (x := x) (by rw [move_alive]; exact hx)
  obtain ⟨f3, h7, h8, h9⟩ := forest_detach_models hm hx
  have he : (s.move x d.place).detach x = s.detach x := by
    unfold Shape.detach
    rw [move_size, move_alive]
    congr 1
    · funext y; simp only [upd]
      split
      · rfl
      · rename_i h; rw [hpar, if_neg h]
    · funext q; exact hkids q
  rw [he] at h5
  have : f3 = f2 := forest_ext h8 h5 (fun y => by
    rw [Forest.getData, Forest.getData, h9, h6, h3])
  exact ⟨f1, f2, h1, h4, by rw [h7, this]⟩

/-! ### The hypotheses can be met

Each example applies the theorem named in its comment to a concrete forest. -/

section
/-- `C08_insert_in_place_details`: the children of node 0. -/
example := (C08_insert_in_place_details Sample.models (P := 0) (x := 1) (y := 2) (p := 0) (A := []) (B := [3])).1 rfl

/-- `C08_insert_in_place_details`: the children of node 0 (continued). -/
example := (C08_insert_in_place_details Sample.models (P := 0) (x := 2) (y := 3) (p := 1) (A := []) (B := [])).2.2.2.1 rfl

/-- `C08_insert_only_child_first_partial`: a root with one child. -/
example := C08_insert_only_child_first_partial (Sample.addChild_state (Sample.createRoot_state (T := Nat) Sample.new_models (cap := 100) (by decide) 1) (cap := 100) (by decide) 2 (p := 0) rfl) (x := 1) (P := 0) rfl

/-- `C09_insert_in_place_result`: node 3 as the last child of node 0. -/
example := C09_insert_in_place_result Sample.models (x := 3) (d := .lastChildOf 0) rfl

/-- `C11_sibling_of_root_unchanged_partial`: node 2 beside root 6. -/
example := C11_sibling_of_root_unchanged_partial Sample.models (x := 2) (r := 6) rfl rfl rfl (by decide)

end

end Treena
