import Verif.Proof.Dft
/-! Sibling iterators and the ancestors iterator. -/

namespace Treena
open Hier

variable {T : Type} {f : Forest T} {s : Shape}

theorem isChain_of_split {α : Type} {R : α → α → Prop} (l : List α)
    (h : ∀ pre a b post, l = pre ++ a :: b :: post → R a b) : l.IsChain R := by
  induction l with
  | nil => simp
  | cons a l ih =>
    have h2 := ih fun pre x y post e => h (a :: pre) x y post (by rw [e]; rfl)
    cases l with
    | nil => simp
    | cons b l => simp only [List.isChain_cons_cons]; exact ⟨h [] a b l rfl, h2⟩

abbrev SibWalk (f : Forest T) (L : List Nat) : Prop :=
  Walk f (fun i => i) (Siblings.stepFwd f.hier) (Siblings.stepBack f.hier) L

theorem kids_walk (hm : Models f s) (x : Nat) : SibWalk f (s.kids x) where
  nodup := hm.valid.kids_nodup x
  alive := fun i hi => by rw [hm.isAlive]; exact hm.valid.kid_alive hi
  chain := by
    refine isChain_of_split _ fun pre a b post hk => ?_
    have hv := hm.valid
    have ha := hm.agrees
    have haa : s.alive a = true := hv.kid_alive (p := x) (by rw [hk]; simp)
    have hab : s.alive b = true := hv.kid_alive (p := x) (by rw [hk]; simp)
    constructor
    · simp only [Siblings.stepFwd, travNbr_alive ha hv haa, ha.nextSibling_get hv haa, next_mid hv hk]
    · simp only [Siblings.stepBack, travNbr_alive ha hv hab, ha.prevSibling hv hab, prev_mid hv hk]

theorem single_walk (hm : Models f s) {x : Nat} (hx : s.alive x = true) : SibWalk f [x] :=
  ⟨by simp, by simp, fun i hi => by simp at hi; subst hi; rw [hm.isAlive, hx]⟩

theorem sibs_walk (hm : Models f s) {x : Nat} (hx : s.alive x = true) : SibWalk f (s.sibs x) := by
  cases e : s.parent x with
  | none => rw [Shape.sibs_root e]; exact single_walk hm hx
  | some p => rw [Shape.sibs_child e]; exact kids_walk hm p

theorem Walk.left {ι : Type} {idOf : ι → Nat} {stepF stepB : ι → R (Option ι)}
    {A B : List ι} (w : Walk f idOf stepF stepB (A ++ B)) : Walk f idOf stepF stepB A :=
  ⟨(List.nodup_append.1 w.nodup).1, (List.isChain_append.1 w.chain).1,
    fun i hi => w.alive i (by simp [hi])⟩

theorem Walk.right {ι : Type} {idOf : ι → Nat} {stepF stepB : ι → R (Option ι)}
    {A B : List ι} (w : Walk f idOf stepF stepB (A ++ B)) : Walk f idOf stepF stepB B :=
  ⟨(List.nodup_append.1 w.nodup).2.1, (List.isChain_append.1 w.chain).2.1,
    fun i hi => w.alive i (by simp [hi])⟩

theorem siblingsNext_walk {L : List Nat} (w : SibWalk f L) :
    f.siblingsNext (ends L) = .ok (L.head?, ends L.tail) := by
  unfold Forest.siblingsNext Siblings.next
  rw [w.deNext]
  exact emit_ok fun i hi => w.alive i (List.mem_of_mem_head? (by simpa using hi))

theorem siblingsNextBack_walk {L : List Nat} (w : SibWalk f L) :
    f.siblingsNextBack (ends L) = .ok (L.getLast?, ends L.dropLast) := by
  unfold Forest.siblingsNextBack Siblings.nextBack
  rw [w.deNextBack]
  exact emit_ok fun i hi => w.alive i (List.mem_of_getLast? hi)

theorem siblings_drive {L : List Nat} (w : SibWalk f L) (ds : List Dir) :
    drive f.siblingsNext f.siblingsNextBack (ends L) ds = .ok (dequeRun L ds) :=
  drive_deque (P := SibWalk f) (st := ends)
    (fun _ w => w.tail) (fun _ w => w.dropLast) (fun _ w => siblingsNext_walk w)
    (fun _ w => siblingsNextBack_walk w) ds _ w

theorem children_start (hm : Models f s) {x : Nat} (hx : s.alive x = true) :
    f.children x = .ok (ends (s.kids x)) := by
  unfold Forest.children
  rw [iterNew_ok (by rw [hm.isAlive, hx])]
  unfold Siblings.withParent
  rw [neighbors_live ((hm.agrees.live_iff hm.valid x).2 hx)]
  exact hm.agrees.firstLastChild hm.valid hx

theorem sibs_split (hv : s.Valid) (x : Nat) :
    before (s.sibs x) x ++ x :: after (s.sibs x) x = s.sibs x := before_after (hv.mem_sibs x)

theorem following_start (hm : Models f s) {x : Nat} (hx : s.alive x = true) :
    f.followingSiblingsOrSelf x = .ok (ends (x :: after (s.sibs x) x)) := by
  have hv := hm.valid
  have ha := hm.agrees
  unfold Forest.followingSiblingsOrSelf
  rw [iterNew_ok (by rw [hm.isAlive, hx])]
  unfold Siblings.withFirstSibling
  rw [neighbors_live ((ha.live_iff hv x).2 hx)]
  simp only [expect_some, ha.getParent_get hv hx]
  cases e : s.parent x with
  | none => rw [Shape.sibs_root e]; simp [after, ends]
  | some p =>
    have hp := (hv.parent_alive x p e).2
    rw [Shape.sibs_child e]
    simp only [Option.bind_some, neighbors_live ((ha.live_iff hv p).2 hp), ha.lastChild hv hp]
    have hs := before_after ((hv.mem_kids x p).2 e)
    have : (s.kids p).getLast? = (x :: after (s.kids p) x).getLast? := by
      conv_lhs => rw [← hs]
      rw [List.getLast?_append, List.getLast?_eq_some_getLast (l := x :: _) (by simp)]; rfl
    rw [this, ends_cons, List.getLast?_eq_some_getLast (by simp)]
    simp

theorem preceding_start (hm : Models f s) {x : Nat} (hx : s.alive x = true) :
    f.precedingSiblingsOrSelf x = .ok (ends (before (s.sibs x) x ++ [x])) := by
  have hv := hm.valid
  have ha := hm.agrees
  unfold Forest.precedingSiblingsOrSelf
  rw [iterNew_ok (by rw [hm.isAlive, hx])]
  unfold Siblings.withLastSibling
  rw [neighbors_live ((ha.live_iff hv x).2 hx)]
  simp only [expect_some, ha.getParent_get hv hx]
  cases e : s.parent x with
  | none => rw [Shape.sibs_root e]; simp [before, ends]
  | some p =>
    have hp := (hv.parent_alive x p e).2
    rw [Shape.sibs_child e]
    simp only [Option.bind_some, neighbors_live ((ha.live_iff hv p).2 hp), ha.firstChild_get hv hp]
    have hs := before_after ((hv.mem_kids x p).2 e)
    have : (s.kids p).head? = (before (s.kids p) x ++ [x]).head? := by
      conv_lhs => rw [← hs]
      rw [List.head?_append, List.head?_append]; simp
    rw [this, ends_concat, List.head?_eq_some_head (by simp)]
    simp

theorem following_walk (hm : Models f s) {x : Nat} (hx : s.alive x = true) :
    SibWalk f (x :: after (s.sibs x) x) := by
  have w := sibs_walk hm hx
  rw [← sibs_split hm.valid x] at w
  exact w.right

theorem preceding_walk (hm : Models f s) {x : Nat} (hx : s.alive x = true) :
    SibWalk f (before (s.sibs x) x ++ [x]) := by
  have w := sibs_walk hm hx
  rw [← sibs_split hm.valid x, ← List.singleton_append, ← List.append_assoc] at w
  exact w.left

theorem following_excl_start (hm : Models f s) {x : Nat} (hx : s.alive x = true) :
    f.followingSiblings x = .ok (ends (after (s.sibs x) x)) := by
  simp only [Forest.followingSiblings, Forest.skipped, following_start hm hx,
    siblingsNext_walk (following_walk hm hx), List.tail_cons]

theorem preceding_excl_start (hm : Models f s) {x : Nat} (hx : s.alive x = true) :
    f.precedingSiblings x = .ok (ends (before (s.sibs x) x)) := by
  simp only [Forest.precedingSiblings, Forest.skipped, preceding_start hm hx,
    siblingsNextBack_walk (preceding_walk hm hx), List.dropLast_concat]

/-! ### Ancestors -/

/-- Lists the ancestors iterator may still have to emit. -/
def UpTo (s : Shape) (L : List Nat) : Prop :=
  L = [] ∨ ∃ x, s.alive x = true ∧ UpPath s.parent x L

theorem UpPath.head? {par : Nat → Option Nat} {x : Nat} {l : List Nat} (h : UpPath par x l) :
    l.head? = some x := by cases h <;> rfl

theorem UpTo.next (hm : Models f s) {L : List Nat} (h : UpTo s L) :
    f.ancestorsNext L.head? = .ok (L.head?, L.tail.head?) ∧ UpTo s L.tail := by
  rcases h with rfl | ⟨x, hx, hp⟩
  · exact ⟨rfl, .inl rfl⟩
  · have hv := hm.valid
    have ha := hm.agrees
    have key : Ancestors.next f.hier L.head? = .ok (some x, s.parent x) := by
      rw [hp.head?]
      simp only [Ancestors.next, neighbors_live ((ha.live_iff hv x).2 hx), expect_some,
        ha.getParent_get hv hx]
    have hpar : L.tail.head? = s.parent x ∧ UpTo s L.tail := by
      cases hp with
      | root h => exact ⟨by simp [h], .inl rfl⟩
      | step h h' => exact ⟨by simp [h, h'.head?], .inr ⟨_, (hv.parent_alive _ _ h).2, h'⟩⟩
    refine ⟨?_, hpar.2⟩
    unfold Forest.ancestorsNext
    rw [key, hpar.1, hp.head?]
    exact emit_ok fun i hi => by cases hi; rw [hm.isAlive, hx]

theorem ancestors_pull (hm : Models f s) (n : Nat) : ∀ L, UpTo s L →
    pull f.ancestorsNext n L.head? = .ok (pulls L n) :=
  pull_list (st := fun L => L.head?) (P := UpTo s) (fun _ h => (h.next hm).2)
    (fun _ h => (h.next hm).1) n

theorem ancestors_start (hm : Models f s) {x : Nat} (hx : s.alive x = true) {L : List Nat}
    (hp : UpPath s.parent x L) : f.ancestorsOrSelf x = .ok L.head? := by
  unfold Forest.ancestorsOrSelf
  rw [iterNew_ok (by rw [hm.isAlive, hx]), hp.head?]
  simp [Ancestors.withStart, hm.hierAlive, hx]

theorem ancestors_excl_start (hm : Models f s) {x : Nat} (hx : s.alive x = true) {L : List Nat}
    (hp : UpPath s.parent x L) : f.ancestors x = .ok L.tail.head? := by
  simp only [Forest.ancestors, Forest.skipped, ancestors_start hm hx hp,
    (UpTo.next hm (.inr ⟨x, hx, hp⟩)).1]

theorem mem_upPath_iff {par : Nat → Option Nat} {x : Nat} {L : List Nat} (hp : UpPath par x L)
    (a : Nat) : a ∈ L ↔ AncOrSelf par a x := by
  induction hp with
  | root h =>
    simp only [List.mem_singleton]
    constructor
    · rintro rfl; exact .refl
    · intro h'; cases h' with
      | refl => rfl
      | step h1 _ => rw [h] at h1; cases h1
  | step h _ ih =>
    simp only [List.mem_cons, ih]
    constructor
    · rintro (rfl | h')
      · exact .refl
      · exact .step h h'
    · intro h'; cases h' with
      | refl => exact .inl rfl
      | step h1 h2 => rw [h] at h1; cases h1; exact .inr h2

end Treena
