import Verif.Proof.Paths
/-! `transplant` of a single node, and the four insertion functions. -/
namespace Treena
open Hier Shape

namespace Shape
variable {s : Shape}

theorem rooted_avoid {par par' : Nat → Option Nat} {C : Nat → Prop} {y : Nat} (hr : Rooted par y)
    (hsame : ∀ z, ¬ C z → par' z = par z) (hav : ∀ c, C c → ¬ AncOrSelf par c y) :
    Rooted par' y := by
  induction hr with
  | @root y h =>
    exact .root (by rw [hsame y (fun hc => hav y hc .refl)]; exact h)
  | @step y p h _ ih =>
    exact .step (by rw [hsame y (fun hc => hav y hc .refl)]; exact h)
      (ih (fun c hc ha => hav c hc (.step h ha)))

theorem Valid.attachRange (hv : s.Valid) {C : List Nat} {P : Nat} {A B : List Nat}
    (hPa : s.alive P = true) (hkids : s.kids P = A ++ B) (hCnd : C.Nodup)
    (hCa : ∀ c, c ∈ C → s.alive c = true) (hCroot : ∀ c, c ∈ C → s.parent c = none)
    (hcyc : ∀ c, c ∈ C → ¬ AncOrSelf s.parent c P) :
    (s.attachRange C P (A ++ (C ++ B))).Valid where
  alive_lt := hv.alive_lt
  parent_alive := by
    intro x p h
    simp only [Shape.attachRange] at h ⊢
    split at h
    · cases h; exact ⟨hCa x ‹_›, hPa⟩
    · exact hv.parent_alive x p h
  mem_kids := by
    intro x p
    simp only [Shape.attachRange, upd]
    by_cases hp : p = P
    · subst hp
      simp only [if_true]
      have := hv.mem_kids x p
      rw [hkids] at this
      simp at this
      by_cases hx : x ∈ C
      · simp [hx]
      · simp [hx]; exact this
    · simp only [hp, if_false]
      rw [hv.mem_kids]
      by_cases hx : x ∈ C
      · simp [hx, hCroot x hx]; exact fun e => hp e.symm
      · simp [hx]
  kids_nodup := by
    intro p
    simp only [Shape.attachRange, upd]
    split
    · have hnd := hv.kids_nodup P
      have hC : ∀ c ∈ C, c ∉ s.kids P := fun c hc hm => by
        have := hCroot c hc
        rw [hv.kid_parent hm] at this; cases this
      rw [hkids] at hnd hC
      rw [List.nodup_append] at hnd ⊢
      refine ⟨hnd.1, ?_, ?_⟩
      · rw [List.nodup_append]
        refine ⟨hCnd, hnd.2.1, ?_⟩
        intro a ha b hb e; subst e
        exact hC a ha (by simp [hb])
      · intro a ha b hb e; subst e
        rcases List.mem_append.1 hb with hb | hb
        · exact hC a hb (by simp [ha])
        · exact hnd.2.2 a ha a hb rfl
    · exact hv.kids_nodup p
  rooted := by
    intro y
    have hP : Rooted (s.attachRange C P (A ++ (C ++ B))).parent P :=
      rooted_avoid (C := (· ∈ C)) (hv.rooted P) (fun z hz => by simp [Shape.attachRange, hz])
        hcyc
    have hr := hv.rooted y
    induction hr with
    | @root y h =>
      by_cases hy : y ∈ C
      · exact .step (p := P) (by simp [Shape.attachRange, hy]) hP
      · exact .root (by simp [Shape.attachRange, hy, h])
    | @step y p h _ ih =>
      by_cases hy : y ∈ C
      · exact .step (p := P) (by simp [Shape.attachRange, hy]) hP
      · exact .step (p := p) (by simp [Shape.attachRange, hy, h]) ih

theorem AncOrSelf.of_detach {x a y : Nat} (h : AncOrSelf (s.detach x).parent a y) :
    AncOrSelf s.parent a y := by
  induction h with
  | refl => exact .refl
  | @step y p h _ ih =>
    simp only [Shape.detach, upd] at h
    split at h
    · cases h
    · exact .step h ih

theorem Valid.attach (hv : s.Valid) {x P : Nat} {A B : List Nat}
    (hx : s.alive x = true) (hPa : s.alive P = true) (hkids : (s.detach x).kids P = A ++ B)
    (hcyc : ¬ AncOrSelf s.parent x P) :
    ((s.detach x).attach x P (A ++ x :: B)).Valid := by
  rw [← attachRange_single]
  refine (hv.detach x).attachRange (C := [x]) (A := A) (B := B) hPa hkids (by simp) ?_ ?_ ?_
  · intro c hc; simp at hc; subst hc; exact hx
  · intro c hc; simp at hc; subst hc; exact s.detach_parent_self
  · intro c hc ha; simp at hc; subst hc
    exact hcyc (AncOrSelf.of_detach ha)

end Shape

variable {h : Hier} {s : Shape}

theorem transplantDisconnect_single (ha : Agrees h s) (hv : s.Valid) {x : Nat}
    (hx : s.alive x = true) :
    ∃ h1, transplantDisconnect x x h = .ok () h1 ∧ h1.nbrs.length = s.size ∧
      h1.get x = s.link x ∧ ∀ y, y ≠ x → h1.get y = (s.detach x).entry y := by
  have hl := (ha.live_iff hv x).2 hx
  have hpar : (h.get x).parent = s.parent x := by rw [ha.get_alive hx]; rfl
  have hnx : (h.get x).next = s.next x := by rw [ha.get_alive hx]; rfl
  have hrun : transplantDisconnect x x h = connectTriangle (s.parent x) (s.prev x) (s.next x) h := by
    unfold transplantDisconnect
    simp [nbrOf_live hl, M.read, getParent_live hl, hpar, ha.prevSibling hv hx,
      nextSibling_live hl, hnx]
  rw [hrun]
  cases hp : s.parent x with
  | none =>
    have e1 : s.prev x = none := by unfold prev; rw [sibs_root hp]; simp
    have e2 : s.next x = none := by unfold next; rw [sibs_root hp]; simp
    rw [e1, e2, connect_none]
    refine ⟨h, rfl, ha.1, ha.get_alive hx, fun y _ => ?_⟩
    rw [hv.detach_root hp, ha.2 y]
  | some p => exact disconnect ha hv hp

theorem wouldMakeCyclic_single (ha : Agrees h s) (hv : s.Valid) {x P : Nat}
    (hx : s.alive x = true) (hP : s.alive P = true) :
    ∃ b : Bool, wouldMakeCyclicLinks h x x P = .ok b ∧ (b = true ↔ AncOrSelf s.parent x P) := by
  have hl := (ha.live_iff hv x).2 hx
  have hPl := (ha.live_iff hv P).2 hP
  obtain ⟨l, hpath⟩ := UpPath.exists_of_rooted (hv.rooted P)
  refine ⟨decide (x ∈ l), ?_, ?_⟩
  · unfold wouldMakeCyclicLinks
    simp only [neighbors_live hl, expect_some, if_true, Ancestors.withStart]
    rw [(isAlive_iff h P).2 hPl]
    simp only [Bool.not_true, Bool.false_eq_true, if_false]
    refine ancestorsMeet_eq hpath ?_ ?_
    · intro y hy
      have hya := (hpath.mem_iff.1 hy).alive hv hP
      exact ⟨(ha.live_iff hv y).2 hya, by rw [ha.get_alive hya]; rfl⟩
    · have := hv.path_length hpath hP
      unfold loopFuel; rw [ha.1]; omega
  · simp [hpath.mem_iff]

theorem transplant_single_loop (ha : Agrees h s) (hv : s.Valid) {x P : Nat}
    (hx : s.alive x = true) (hP : s.alive P = true) (hcyc : AncOrSelf s.parent x P)
    (prev next : Option Nat) :
    transplant x x P prev next h = .ok (.error .ancestorDescendantLoop) h := by
  obtain ⟨b, hb, hiff⟩ := wouldMakeCyclic_single ha hv hx hP
  have : b = true := hiff.2 hcyc
  subst this
  unfold transplant
  simp [M.read, hb]

/-- State after disconnecting `x` and rewriting its parent. -/
theorem transplant_prefix (ha : Agrees h s) (hv : s.Valid) {x P : Nat}
    (hx : s.alive x = true) (hP : s.alive P = true) (hcyc : ¬ AncOrSelf s.parent x P) :
    ∃ h2, (∀ prev next, transplant x x P prev next h =
        (match transplantConnect x x P prev next h2 with
          | .ok _ h3 => .ok (.ok ()) h3
          | .fail e h3 => .fail e h3)) ∧
      h2.nbrs.length = s.size ∧
      h2.get x = { s.link x with parent := some P } ∧
      ∀ y, y ≠ x → h2.get y = (s.detach x).entry y := by
  obtain ⟨b, hb, hiff⟩ := wouldMakeCyclic_single ha hv hx hP
  have hb' : b = false := by
    cases b with
    | false => rfl
    | true => exact absurd (hiff.1 rfl) hcyc
  subst hb'
  obtain ⟨h1, hd, hlen1, hgx1, hgo1⟩ := transplantDisconnect_single ha hv hx
  have hPx : P ≠ x := fun e => hcyc (e ▸ .refl)
  have hl1 : h1.live x := by unfold Hier.live; rw [hgx1]; exact hv.link_alive x
  obtain ⟨h2, hrw, hlen2, hget2⟩ := rewriteParents_eq (P := P) (l := x) (f := x) (C := [x])
    (by simp) (by simpa using hPx) (h := h1) (fuel := h1.loopFuel) rfl rfl
    (by unfold loopFuel; simp)
    (by simpa using hl1) (by simp)
  refine ⟨h2, ?_, by rw [hlen2, hlen1], ?_, ?_⟩
  · intro prev next
    unfold transplant
    simp only [M.run_bind, M.read, hb]
    simp only [Bool.false_eq_true, if_false, M.run_bind, hd, M.read, hrw]
    cases transplantConnect x x P prev next h2 <;> rfl
  · rw [hget2 x, if_pos (by simp), hgx1]
  · intro y hy
    rw [hget2 y, if_neg (by simpa using hy), hgo1 y hy]

theorem transplant_single_ok (ha : Agrees h s) (hv : s.Valid) {x P : Nat} {A B : List Nat}
    (hx : s.alive x = true) (hP : s.alive P = true) (hcyc : ¬ AncOrSelf s.parent x P)
    (hkids : (s.detach x).kids P = A ++ B) :
    ∃ h', transplant x x P A.getLast? B.head? h = .ok (.ok ()) h' ∧
      Agrees h' ((s.detach x).attach x P (A ++ x :: B)) := by
  obtain ⟨h2, hrun, hlen, hgx, hgo⟩ := transplant_prefix ha hv hx hP hcyc
  have hPx : P ≠ x := fun e => hcyc (e ▸ .refl)
  obtain ⟨h', hc, hlen', _, hg'⟩ := connect_range (h := h2) (hv.detach x) (P := P) (f := x) (l := x)
    (A := A) (B := B) (C := [x]) (fun _ => False) hlen hP (by simp) (by simpa using hPx) hkids rfl rfl
    (by simp) (by intro c hc; simp at hc; subst hc; exact hx)
    (by intro c hc; simp at hc; subst hc; exact s.detach_parent_self)
    (by simp) (by simp) (by simp)
    (by intro y hy _; simp at hy; exact hgo y hy)
    (by intro c hc; simp at hc; subst hc; rw [hgx])
    (by
      intro c hc; simp at hc; subst hc; rw [hgx]
      show (s.kids c).head? = ((s.kids c).erase c).head?
      rw [List.erase_of_not_mem hv.self_not_kid])
    (by intro c hc hne; simp at hc; exact absurd hc hne)
    (by intro c hc hne; simp at hc; exact absurd hc hne)
    (by
      intro c hc; simp at hc; subst hc
      unfold Hier.live; rw [hgx]; exact hv.link_alive c)
  refine ⟨h', ?_, hlen', ?_⟩
  · rw [hrun, hc]
  · intro y
    rw [hg' y (by simp), attachRange_single]; rfl

theorem head?_erase_ne {l : List Nat} {x : Nat} (h : l.head? ≠ some x) :
    (l.erase x).head? = l.head? := by
  cases l with
  | nil => rfl
  | cons a l =>
    simp at h
    rw [List.erase_cons_tail (by simpa using h)]; rfl

theorem getLast?_erase_ne {l : List Nat} {x : Nat} (h : l.getLast? ≠ some x) :
    (l.erase x).getLast? = l.getLast? := by
  rcases snoc_cases l with e | ⟨l', a, e⟩
  · subst e; rfl
  · subst e
    simp at h
    by_cases hm : x ∈ l'
    · rw [List.erase_append_left _ hm]; simp
    · rw [List.erase_append_right _ hm, List.erase_of_not_mem (by simp; exact fun e => h e.symm)]

theorem before_erase {l : List Nat} {x a : Nat} (h : x ≠ a) :
    before (l.erase x) a = (before l a).erase x := by
  induction l with
  | nil => rfl
  | cons b l ih =>
    by_cases hb : b = x
    · subst hb
      rw [List.erase_cons_head, before_cons, if_neg h, List.erase_cons_head]
    · rw [List.erase_cons_tail (by simpa using hb), before_cons, before_cons]
      by_cases hba : b = a
      · simp [hba]
      · simp only [hba, if_false]
        rw [List.erase_cons_tail (by simpa using hb), ih]

theorem after_erase {l : List Nat} {x a : Nat} (hnd : l.Nodup) (h : x ≠ a) :
    after (l.erase x) a = (after l a).erase x := by
  induction l with
  | nil => rfl
  | cons b l ih =>
    rw [List.nodup_cons] at hnd
    by_cases hb : b = x
    · subst hb
      rw [List.erase_cons_head, after_cons, if_neg h, List.erase_of_not_mem]
      exact fun hm => hnd.1 (after_sub hm)
    · rw [List.erase_cons_tail (by simpa using hb), after_cons, after_cons]
      by_cases hba : b = a
      · simp [hba]
      · simp only [hba, if_false]
        rw [ih hnd.2]

/-- The child list of the new parent without `x`, split at the requested place. -/
theorem place_split (hv : s.Valid) {x P : Nat} {pl : Place} (hpp : s.placeParent pl = some P)
    (hne : ∀ a, pl = .before a ∨ pl = .after a → x ≠ a) (hat : ¬ s.At x pl) :
    ∃ A B, (s.detach x).kids P = A ++ B ∧
      pl.put x ((s.detach x).kids P) = A ++ x :: B ∧
      (match pl with
        | .firstChildOf a => A.getLast? = none ∧ B.head? = s.first a
        | .lastChildOf a => A.getLast? = s.last a ∧ B.head? = none
        | .before a => A.getLast? = s.prev a ∧ B.head? = some a
        | .after a => A.getLast? = some a ∧ B.head? = s.next a) := by
  have hk : (s.detach x).kids P = (s.kids P).erase x := rfl
  cases pl with
  | firstChildOf a =>
    simp only [placeParent, Option.some.injEq] at hpp; subst hpp
    exact ⟨[], (s.kids a).erase x, rfl, rfl, rfl, head?_erase_ne hat⟩
  | lastChildOf a =>
    simp only [placeParent, Option.some.injEq] at hpp; subst hpp
    exact ⟨(s.kids a).erase x, [], by simp [hk], rfl, getLast?_erase_ne hat, rfl⟩
  | before a =>
    simp only [placeParent] at hpp
    have hxa : x ≠ a := hne a (.inl rfl)
    have ham : a ∈ s.kids P := (hv.mem_kids a P).2 hpp
    have ham' : a ∈ (s.kids P).erase x := (hv.kids_nodup P).mem_erase_iff.2 ⟨hxa.symm, ham⟩
    refine ⟨before ((s.kids P).erase x) a, a :: after ((s.kids P).erase x) a, ?_, rfl, ?_, rfl⟩
    · rw [hk]; exact (before_after ham').symm
    · rw [before_erase hxa, getLast?_erase_ne]
      · unfold prev; rw [sibs_child hpp]
      · simp only [At, prev, sibs_child hpp] at hat; exact hat
  | after a =>
    simp only [placeParent] at hpp
    have hxa : x ≠ a := hne a (.inr rfl)
    have ham : a ∈ s.kids P := (hv.mem_kids a P).2 hpp
    have ham' : a ∈ (s.kids P).erase x := (hv.kids_nodup P).mem_erase_iff.2 ⟨hxa.symm, ham⟩
    refine ⟨before ((s.kids P).erase x) a ++ [a], after ((s.kids P).erase x) a, ?_, ?_, by simp, ?_⟩
    · rw [hk]; conv => lhs; rw [← before_after ham']
      simp
    · show before ((s.kids P).erase x) a ++ a :: x :: after ((s.kids P).erase x) a = _
      simp
    · rw [after_erase (hv.kids_nodup P) hxa, head?_erase_ne]
      · unfold next; rw [sibs_child hpp]
      · simp only [At, next, sibs_child hpp] at hat; exact hat

theorem placeParent_alive (hv : s.Valid) {pl : Place} {P : Nat} (ha : s.alive pl.anchor = true)
    (hpp : s.placeParent pl = some P) : s.alive P = true := by
  cases pl with
  | firstChildOf a => simp only [placeParent, Option.some.injEq] at hpp; subst hpp; exact ha
  | lastChildOf a => simp only [placeParent, Option.some.injEq] at hpp; subst hpp; exact ha
  | before a => exact (hv.parent_alive a P hpp).2
  | after a => exact (hv.parent_alive a P hpp).2

/-- What `insert` does before calling `transplant`. -/
theorem insert_run (ha : Agrees h s) (hv : s.Valid) {x : Nat} {d : InsertAs}
    (hx : s.alive x = true) (hanch : s.alive d.place.anchor = true)
    (hne : ∀ a, d.place = .before a ∨ d.place = .after a → x ≠ a) :
    Hier.insert x d h =
      (match s.placeParent d.place with
        | none => .fail (.panic "[precondition] the parent must be alive to have siblings") h
        | some P =>
          (match d.place with
            | .firstChildOf a => transplant x x P none (s.first a) h
            | .lastChildOf a => transplant x x P (s.last a) none h
            | .before a => transplant x x P (s.prev a) (some a) h
            | .after a => transplant x x P (some a) (s.next a) h)) := by
  have hxl := (isAlive_iff h x).2 ((ha.live_iff hv x).2 hx)
  have hrs : rangeSingle h x = .ok (x, x) := by simp [rangeSingle, hxl]
  cases d with
  | firstChildOf a =>
    have hanch' : s.alive a = true := hanch
    have hal := (ha.live_iff hv a).2 hanch'
    have hfc : (h.get a).first = s.first a := by rw [ha.get_alive hanch']; rfl
    simp [Hier.insert, prependChild, InsertAs.place, placeParent, nbrOf_live hal, M.read,
      firstChild_live hal, hrs, hfc]
  | lastChildOf a =>
    have hanch' : s.alive a = true := hanch
    have hal := (ha.live_iff hv a).2 hanch'
    simp [Hier.insert, appendChild, InsertAs.place, placeParent, nbrOf_live hal, M.read,
      ha.lastChild hv hanch', hrs]; rfl
  | previousSiblingOf a =>
    have hanch' : s.alive a = true := hanch
    have hal := (ha.live_iff hv a).2 hanch'
    have hxa : x ≠ a := hne a (.inl rfl)
    have hpar : (h.get a).parent = s.parent a := by rw [ha.get_alive hanch']; rfl
    simp [Hier.insert, insertBefore, InsertAs.place, placeParent, nbrOf_live hal, M.read,
      getParent_live hal, hxa, hpar]
    cases s.parent a <;> simp [ha.prevSibling hv hanch', hrs]
  | nextSiblingOf a =>
    have hanch' : s.alive a = true := hanch
    have hal := (ha.live_iff hv a).2 hanch'
    have hxa : x ≠ a := hne a (.inr rfl)
    have hpar : (h.get a).parent = s.parent a := by rw [ha.get_alive hanch']; rfl
    have hnx : (h.get a).next = s.next a := by rw [ha.get_alive hanch']; rfl
    simp [Hier.insert, insertAfter, InsertAs.place, placeParent, nbrOf_live hal, M.read,
      getParent_live hal, nextSibling_live hal, hxa, hpar, hnx]
    cases s.parent a <;> simp [hrs]

theorem insert_loop (ha : Agrees h s) (hv : s.Valid) {x P : Nat} {d : InsertAs}
    (hx : s.alive x = true) (hanch : s.alive d.place.anchor = true)
    (hne : ∀ a, d.place = .before a ∨ d.place = .after a → x ≠ a)
    (hpp : s.placeParent d.place = some P) (hcyc : AncOrSelf s.parent x P) :
    Hier.insert x d h = .ok (.error .ancestorDescendantLoop) h := by
  have hP := placeParent_alive hv hanch hpp
  rw [insert_run ha hv hx hanch hne, hpp]
  cases d <;> exact transplant_single_loop ha hv hx hP hcyc _ _

theorem insert_unorderable {h : Hier} {x : Nat} {d : InsertAs}
    (he : d.place = .before x ∨ d.place = .after x) :
    Hier.insert x d h = .ok (.error .unorderableSiblings) h := by
  cases d <;> simp [InsertAs.place] at he <;> subst he <;>
    simp [Hier.insert, insertBefore, insertAfter]

theorem insert_agrees (ha : Agrees h s) (hv : s.Valid) {x P : Nat} {d : InsertAs}
    (hx : s.alive x = true) (hanch : s.alive d.place.anchor = true)
    (hne : ∀ a, d.place = .before a ∨ d.place = .after a → x ≠ a)
    (hpp : s.placeParent d.place = some P) (hcyc : ¬ AncOrSelf s.parent x P)
    (hat : ¬ s.At x d.place) :
    ∃ h', Hier.insert x d h = .ok (.ok ()) h' ∧ Agrees h' (s.move x d.place) ∧
      (s.move x d.place).Valid := by
  have hP := placeParent_alive hv hanch hpp
  obtain ⟨A, B, hk, hput, hends⟩ := place_split hv hpp hne hat
  obtain ⟨h', hrun, hag⟩ := transplant_single_ok ha hv hx hP hcyc hk
  have hmove : s.move x d.place = (s.detach x).attach x P (A ++ x :: B) := by
    unfold move; rw [hpp]; simp only [hput]
  refine ⟨h', ?_, by rw [hmove]; exact hag, by rw [hmove]; exact hv.attach hx hP hk hcyc⟩
  rw [insert_run ha hv hx hanch hne, hpp, ← hrun]
  cases d <;> simp only [InsertAs.place] at hends ⊢ <;> rw [hends.1, hends.2]

end Treena
