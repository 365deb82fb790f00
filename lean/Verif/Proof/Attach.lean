import Verif.Proof.Detach
/-! `detach`, and `transplantConnect` inserting a chain of siblings into a child list. -/
namespace Treena
open Hier Shape

namespace Shape
variable {s : Shape}

theorem Rooted.mono {par par' : Nat → Option Nat} {x : Nat} (h : Rooted par x)
    (hs : ∀ y, par' y = par y ∨ par' y = none) : Rooted par' x := by
  induction h with
  | @root x h => rcases hs x with e | e
                 · exact .root (e ▸ h)
                 · exact .root e
  | @step x p h _ ih => rcases hs x with e | e
                        · exact .step (e ▸ h) ih
                        · exact .root e

theorem Valid.detach (hv : s.Valid) (x : Nat) : (s.detach x).Valid where
  alive_lt := hv.alive_lt
  parent_alive := by
    intro y p h
    simp only [Shape.detach, upd] at h
    split at h
    · cases h
    · exact hv.parent_alive y p h
  mem_kids := by
    intro y p
    show y ∈ (s.kids p).erase x ↔ upd s.parent x none y = some p
    rw [(hv.kids_nodup p).mem_erase_iff, hv.mem_kids]
    unfold upd; split <;> simp [*]
  kids_nodup := fun p => (hv.kids_nodup p).erase x
  rooted := fun y => by
    refine Rooted.mono (hv.rooted y) (fun z => ?_)
    simp only [Shape.detach, upd]
    split <;> simp

/-- Detaching a root does nothing. -/
theorem Valid.detach_root (hv : s.Valid) {x : Nat} (h : s.parent x = none) : s.detach x = s := by
  cases s with
  | mk size alive parent kids =>
    simp only [Shape.detach, Shape.mk.injEq, true_and]
    constructor
    · funext y; unfold upd; split
      · rename_i e; subst e; exact h.symm
      · rfl
    · funext q
      apply List.erase_of_not_mem
      intro hm
      have h2 : parent x = some q := (hv.mem_kids x q).1 hm
      have h1 : parent x = none := h
      rw [h1] at h2; cases h2

theorem Valid.detach_link_self (hv : s.Valid) (x : Nat) :
    (s.detach x).link x = { parent := none, prevCyc := some x, next := none,
                            first := (s.kids x).head? } := by
  rw [link_root (s := s.detach x) s.detach_parent_self]
  show Neighbors.mk none (some x) none ((s.kids x).erase x).head? = _
  rw [List.erase_of_not_mem hv.self_not_kid]

end Shape

/-- `detach` on a live node of a consistent arena. -/
theorem detach_agrees {h : Hier} {s : Shape} (ha : Agrees h s) (hv : s.Valid) {x : Nat}
    (hx : s.alive x = true) :
    ∃ h', Hier.detach x h = .ok () h' ∧ Agrees h' (s.detach x) := by
  have hl := (ha.live_iff hv x).2 hx
  have hpar : (h.get x).parent = s.parent x := by rw [ha.get_alive hx]; rfl
  have hnx : (h.get x).next = s.next x := by rw [ha.get_alive hx]; rfl
  cases hp : s.parent x with
  | none =>
    refine ⟨h, ?_, ?_⟩
    · unfold Hier.detach
      simp [nbrOf_live hl, M.read, getParent_live hl, hpar, hp]
    · rw [hv.detach_root hp]; exact ha
  | some p =>
    obtain ⟨h1, hc, hlen, hgx, hgo⟩ := disconnect ha hv hp
    have hl1 : h1.live x := by unfold Hier.live; rw [hgx]; exact hv.link_alive x
    refine ⟨h1.put x { h1.get x with parent := none, next := none, prevCyc := some x }, ?_, ?_, ?_⟩
    · unfold Hier.detach
      simp [nbrOf_live hl, M.read, getParent_live hl, hpar, hp, ha.prevSibling hv hx,
        nextSibling_live hl, hnx, hc, updNbr_live hl1]
    · rw [length_put]; exact hlen
    · intro y
      rw [get_put (live_lt hl1)]
      split
      · rename_i e; subst e
        have hd : (s.detach y).alive y = true := hx
        rw [entry_alive hd, hv.detach_link_self, hgx]; rfl
      · rename_i e; exact hgo y e

/-- First `connect_triangle` of `transplantConnect`. -/
theorem connectFront {h : Hier} {P f : Nat} {A B : List Nat}
    (hP : h.live P) (hf : h.live f) (hPf : P ≠ f) (hfA : f ∉ A)
    (hA : ∀ a, a ∈ A → h.live a)
    (hfirst : A = [] → (h.get P).first = B.head?)
    (hblast : A = [] → ∀ b, B.head? = some b → (h.get b).prevCyc = B.getLast?) :
    ∃ h', connectTriangle (some P) A.getLast? (some f) h = .ok () h' ∧
      h'.nbrs.length = h.nbrs.length ∧
      ∀ y, h'.get y =
        if y = f then { h.get f with parent := some P,
                                     prevCyc := some ((A.getLast?.or B.getLast?).getD f) }
        else if A.getLast? = some y then { h.get y with parent := some P, next := some f }
        else if y = P ∧ A = [] then { h.get y with first := some f }
        else h.get y := by
  rcases snoc_cases A with hA0 | ⟨A', a, hA0⟩
  · subst hA0
    have hl : (h.get P).lastChild h = .ok B.getLast? := by
      cases B with
      | nil => exact lastChild_none hP (hfirst rfl)
      | cons b B' =>
        obtain ⟨z, hz, _⟩ := getLast?_of_mem (l := b :: B') (x := b) (by simp)
        rw [hz]
        exact lastChild_some hP (hfirst rfl) (by rw [hblast rfl b rfl, hz])
    simp only [List.getLast?_nil]
    rw [connect_pb hPf hP hf hl]
    refine ⟨_, rfl, by simp, fun y => ?_⟩
    rw [get_put (by simpa using live_lt hP), get_put (live_lt hf)]
    by_cases hyP : y = P
    · subst hyP; simp [hPf]
    · by_cases hyf : y = f
      · subst hyf; simp [hyP]
      · simp [hyP, hyf]
  · have haA : a ∈ A := by simp [hA0]
    have hlast : A.getLast? = some a := by rw [hA0]; simp
    have haf : a ≠ f := fun e => hfA (e ▸ haA)
    have hne : A ≠ [] := by intro e; simp [e] at haA
    rw [hlast, connect_pab haf (hA a haA) hf]
    refine ⟨_, rfl, by simp, fun y => ?_⟩
    rw [get_put (by simpa using live_lt hf), get_put (live_lt (hA a haA))]
    by_cases hyf : y = f
    · subst hyf; simp
    · by_cases hya : y = a
      · subst hya; simp [hyf]
      · have : ¬ a = y := fun e => hya e.symm
        simp [hyf, hya, hne, this]

/-- Second `connect_triangle` of `transplantConnect`; `c` is the first child of `P`. -/
theorem connectBack {h : Hier} {P l c : Nat} {B : List Nat}
    (hP : h.live P) (hl : h.live l) (hPl : P ≠ l) (hlB : l ∉ B)
    (hB : ∀ b, b ∈ B → h.live b) (hc : h.live c) (hfirst : (h.get P).first = some c) (hcP : c ≠ P) :
    ∃ h', connectTriangle (some P) (some l) B.head? h = .ok () h' ∧
      h'.nbrs.length = h.nbrs.length ∧
      ∀ y, (h'.get y).first = (h.get y).first ∧
        (h'.get y).parent = (if y = l ∨ B.head? = some y then some P else (h.get y).parent) ∧
        (h'.get y).next = (if y = l then B.head? else (h.get y).next) ∧
        (h'.get y).prevCyc =
          (if B.head? = some y ∨ (B = [] ∧ y = c) then some l else (h.get y).prevCyc) := by
  cases B with
  | nil =>
    simp only [List.head?_nil]
    rw [connect_pa hPl hl hP hc hfirst]
    refine ⟨_, rfl, by simp, fun y => ?_⟩
    rw [get_put (by simpa using live_lt hc), get_put (live_lt hl), get_put (live_lt hl)]
    by_cases hyc : y = c
    · subst hyc
      by_cases hyl : y = l
      · subst hyl; simp
      · simp [hyl]
    · by_cases hyl : y = l
      · subst hyl; simp [hyc]
      · simp [hyl, hyc]
  | cons b B' =>
    have hlb : l ≠ b := fun e => hlB (by simp [e])
    simp only [List.head?_cons]
    rw [connect_pab hlb hl (hB b (by simp))]
    refine ⟨_, rfl, by simp, fun y => ?_⟩
    rw [get_put (by simpa using live_lt (hB b (by simp))), get_put (live_lt hl)]
    by_cases hyb : y = b
    · subst hyb; simp [hlb.symm]
    · have : ¬ b = y := fun e => hyb e.symm
      by_cases hyl : y = l
      · subst hyl; simp [hyb, this]
      · simp [hyl, hyb, this]

/-- Insert the roots `C` into the child list of `P`, the new list being `l`. -/
def Shape.attachRange (s : Shape) (C : List Nat) (P : Nat) (l : List Nat) : Shape :=
  { s with
    parent := fun y => if y ∈ C then some P else s.parent y
    kids := Shape.upd s.kids P l }

theorem Shape.attachRange_single (s : Shape) (x P : Nat) (l : List Nat) :
    s.attachRange [x] P l = s.attach x P l := by
  simp [attachRange, attach]; rfl

theorem neighbors_ext {a b : Neighbors} (h1 : a.parent = b.parent) (h2 : a.prevCyc = b.prevCyc)
    (h3 : a.next = b.next) (h4 : a.first = b.first) : a = b := by
  cases a; cases b; simp_all

/-- `transplantConnect` inserts the chain `C` between `A` and `B`.  The records of nodes in `E` are
left alone, whatever they are. -/
theorem connect_range {h : Hier} {s : Shape} (hv : s.Valid) {P f l : Nat} {A B C : List Nat}
    (E : Nat → Prop)
    (hlen : h.nbrs.length = s.size)
    (hPa : s.alive P = true) (hPE : ¬ E P) (hPC : P ∉ C)
    (hkids : s.kids P = A ++ B)
    (hf : C.head? = some f) (hl : C.getLast? = some l) (hCnd : C.Nodup)
    (hCa : ∀ c, c ∈ C → s.alive c = true) (hCroot : ∀ c, c ∈ C → s.parent c = none)
    (hAE : ∀ a, a ∈ A → ¬ E a) (hBE : ∀ b, b ∈ B → ¬ E b) (hCE : ∀ c, c ∈ C → ¬ E c)
    (hget : ∀ y, y ∉ C → ¬ E y → h.get y = s.entry y)
    (hCparent : ∀ c, c ∈ C → (h.get c).parent = some P)
    (hCfirst : ∀ c, c ∈ C → (h.get c).first = (s.kids c).head?)
    (hCnext : ∀ c, c ∈ C → c ≠ l → (h.get c).next = nx C c)
    (hCprev : ∀ c, c ∈ C → c ≠ f → (h.get c).prevCyc = pv C c)
    (hClive : ∀ c, c ∈ C → h.live c) :
    ∃ h', transplantConnect f l P A.getLast? B.head? h = .ok () h' ∧
      h'.nbrs.length = s.size ∧ (∀ y, E y → h'.get y = h.get y) ∧
      ∀ y, ¬ E y → h'.get y = (s.attachRange C P (A ++ (C ++ B))).entry y := by
  have hfC : f ∈ C := List.mem_of_mem_head? hf
  have hlC : l ∈ C := List.mem_of_getLast? hl
  have hnd := hv.kids_nodup P
  rw [hkids] at hnd
  have hAnd : A.Nodup := (List.nodup_append.1 hnd).1
  have hBnd : B.Nodup := (List.nodup_append.1 hnd).2.1
  have hAB : ∀ y ∈ A, y ∉ B := fun y h1 h2 => (List.nodup_append.1 hnd).2.2 y h1 y h2 rfl
  have hpA : ∀ a, a ∈ A → s.parent a = some P := fun a h => hv.kid_parent (by simp [hkids, h])
  have hpB : ∀ a, a ∈ B → s.parent a = some P := fun a h => hv.kid_parent (by simp [hkids, h])
  have hAC : ∀ y ∈ A, y ∉ C := fun y h1 h2 => by have := hCroot y h2; rw [hpA y h1] at this; cases this
  have hBC : ∀ y ∈ B, y ∉ C := fun y h1 h2 => by have := hCroot y h2; rw [hpB y h1] at this; cases this
  have haA : ∀ a, a ∈ A → s.alive a = true := fun a h => (hv.parent_alive _ _ (hpA a h)).1
  have haB : ∀ a, a ∈ B → s.alive a = true := fun a h => (hv.parent_alive _ _ (hpB a h)).1
  have hPnA : P ∉ A := fun hm => hv.self_not_kid (x := P) (by simp [hkids, hm])
  have hPnB : P ∉ B := fun hm => hv.self_not_kid (x := P) (by simp [hkids, hm])
  have hgP : h.get P = s.link P := by rw [hget P hPC hPE, entry_alive hPa]
  have hgA : ∀ y, y ∈ A → h.get y = Neighbors.mk (some P) (pc (A ++ B) y) (nx (A ++ B) y) (s.kids y).head? :=
    fun y hy => by
      rw [hget y (hAC y hy) (hAE y hy), entry_alive (haA y hy), link_child (hpA y hy), hkids]
  have hgB : ∀ y, y ∈ B → h.get y = Neighbors.mk (some P) (pc (A ++ B) y) (nx (A ++ B) y) (s.kids y).head? :=
    fun y hy => by
      rw [hget y (hBC y hy) (hBE y hy), entry_alive (haB y hy), link_child (hpB y hy), hkids]
  have hliveP : h.live P := by unfold Hier.live; rw [hgP]; exact hv.link_alive P
  have hliveA : ∀ a, a ∈ A → h.live a := fun a ha => by
    unfold Hier.live; rw [hget a (hAC a ha) (hAE a ha), hv.entry_isAlive]; exact haA a ha
  have hliveB : ∀ a, a ∈ B → h.live a := fun a ha => by
    unfold Hier.live; rw [hget a (hBC a ha) (hBE a ha), hv.entry_isAlive]; exact haB a ha
  have hPf : P ≠ f := fun e => hPC (e ▸ hfC)
  have hPl : P ≠ l := fun e => hPC (e ▸ hlC)
  have hfA : f ∉ A := fun hm => hAC f hm hfC
  have hlB : l ∉ B := fun hm => hBC l hm hlC
  have hPfirst : (h.get P).first = (A ++ B).head? := by rw [hgP]; show (s.kids P).head? = _; rw [hkids]
  obtain ⟨h1, hc1, hlen1, hg1⟩ := connectFront (B := B) hliveP (hClive f hfC) hPf hfA hliveA
    (by intro e; rw [hPfirst, e]; rfl)
    (by
      intro e b hb
      have hbB : b ∈ B := List.mem_of_mem_head? hb
      rw [hgB b hbB, e]
      show pc B b = _
      rw [pc_self hbB, if_pos hb])
  have hlive1 : ∀ y, h.live y → h1.live y := by
    intro y hy
    unfold Hier.live at hy ⊢
    rw [hg1 y]
    split
    · rfl
    · split
      · exact hy
      · split <;> exact hy
  -- first child of `P` now
  obtain ⟨c, hcdef⟩ : ∃ c, (A ++ C).head? = some c := by
    cases A with
    | nil => exact ⟨f, hf⟩
    | cons a A' => exact ⟨a, rfl⟩
  have hcmem : c ∈ A ++ C := List.mem_of_mem_head? hcdef
  have hcP : c ≠ P := by
    intro e; subst e
    rcases List.mem_append.1 hcmem with hm | hm
    · exact hPnA hm
    · exact hPC hm
  have hc1live : h1.live c := by
    rcases List.mem_append.1 hcmem with hm | hm
    · exact hlive1 c (hliveA c hm)
    · exact hlive1 c (hClive c hm)
  have hPfirst1 : (h1.get P).first = some c := by
    rw [hg1 P, if_neg hPf]
    have : ¬ (A.getLast? = some P) := fun e => hPnA (List.mem_of_getLast? e)
    rw [if_neg this]
    cases A with
    | nil => rw [List.nil_append, hf] at hcdef; simpa using hcdef
    | cons a A' => simp [hPfirst]; simpa using hcdef
  obtain ⟨h2, hc2, hlen2, hg2⟩ := connectBack (B := B) (hlive1 P hliveP) (hlive1 l (hClive l hlC)) hPl
    hlB (fun b hb => hlive1 b (hliveB b hb)) hc1live hPfirst1 hcP
  have hne1 : A.getLast? ≠ some f := fun e => hfA (List.mem_of_getLast? e)
  have hne2 : B.head? ≠ some l := fun e => hlB (List.mem_of_mem_head? e)
  refine ⟨h2, ?_, by rw [hlen2, hlen1, hlen], ?_, ?_⟩
  · unfold transplantConnect
    simp [hne1, hne2, hc1, hc2]
  · -- exceptional nodes
    intro y hy
    have n1 : y ≠ f := fun e => hCE f hfC (e ▸ hy)
    have n2 : A.getLast? ≠ some y := fun e => hAE y (List.mem_of_getLast? e) hy
    have n3 : y ≠ P := fun e => hPE (e ▸ hy)
    have n4 : y ≠ l := fun e => hCE l hlC (e ▸ hy)
    have n5 : B.head? ≠ some y := fun e => hBE y (List.mem_of_mem_head? e) hy
    have n6 : y ≠ c := fun e => by
      subst e
      rcases List.mem_append.1 hcmem with hm | hm
      · exact hAE y hm hy
      · exact hCE y hm hy
    have e1 : h1.get y = h.get y := by rw [hg1 y, if_neg n1, if_neg n2, if_neg (by simp [n3])]
    obtain ⟨q1, q2, q3, q4⟩ := hg2 y
    rw [if_neg (by simp [n4, n5])] at q2
    rw [if_neg n4] at q3
    rw [if_neg (by simp [n5, n6])] at q4
    rw [← e1]
    exact neighbors_ext q2 q4 q3 q1
  · intro y hyE
    let s' := s.attachRange C P (A ++ (C ++ B))
    have hpar' : ∀ z, s'.parent z = if z ∈ C then some P else s.parent z := fun z => rfl
    have hkids' : ∀ z, s'.kids z = if z = P then A ++ (C ++ B) else s.kids z := fun z => rfl
    show h2.get y = s'.entry y
    obtain ⟨q1, q2, q3, q4⟩ := hg2 y
    by_cases hyC : y ∈ C
    · -- a member of the inserted chain
      have hya : s'.alive y = true := hCa y hyC
      have hyP : y ≠ P := fun e => hPC (e ▸ hyC)
      have hyA : y ∉ A := fun hm => hAC y hm hyC
      have hyB : y ∉ B := fun hm => hBC y hm hyC
      have n2 : A.getLast? ≠ some y := fun e => hyA (List.mem_of_getLast? e)
      have n5 : B.head? ≠ some y := fun e => hyB (List.mem_of_mem_head? e)
      rw [entry_alive hya, link_child (s := s') (p := P) (by rw [hpar', if_pos hyC])]
      rw [hkids' P, if_pos rfl, hkids' y, if_neg hyP]
      have hg1y : h1.get y = if y = f then { h.get f with parent := some P, prevCyc := some ((A.getLast?.or B.getLast?).getD f) } else h.get y := by
        rw [hg1 y, if_neg n2, if_neg (show ¬ (y = P ∧ A = []) by simp [hyP])]
      have e1 : nx (A ++ (C ++ B)) y = if C.getLast? = some y then B.head? else nx C y := by
        rw [nx_right _ hyA, nx_left _ hCnd hyC]
      have e2 : pc (A ++ (C ++ B)) y = if C.head? = some y then A.getLast?.or (B.getLast?.or C.getLast?) else pv C y := by
        rw [pc_right _ hyA (by simp [hyC])]
        have : (C ++ B).head? = C.head? := by
          cases C with
          | nil => simp at hyC
          | cons _ _ => rfl
        rw [this, List.getLast?_append, pv_left _ hyC]
      apply neighbors_ext
      · rw [q2]; split
        · rfl
        · rw [hg1y]; split
          · rfl
          · exact hCparent y hyC
      · rw [q4, e2]
        simp only [n5, false_or]
        rw [hf]
        by_cases hyf : y = f
        · subst hyf
          rw [if_pos rfl, hl]
          rw [hg1y, if_pos rfl]
          cases B with
          | cons b B' =>
            obtain ⟨z, hz, _⟩ := getLast?_of_mem (l := b :: B') (x := b) (by simp)
            rw [hz]
            cases A.getLast? <;> simp
          | nil =>
            by_cases hyc : y = c
            · rw [if_pos ⟨rfl, hyc⟩]
              -- `A` must be empty
              have : A = [] := by
                cases A with
                | nil => rfl
                | cons a A' => exfalso; apply hyA; simp at hcdef; subst hcdef; subst hyc; simp
              rw [this]; simp
            · rw [if_neg (by simp [hyc])]
              cases hAl : A.getLast? with
              | none =>
                exfalso; apply hyc
                rw [List.getLast?_eq_none_iff] at hAl
                rw [hAl, List.nil_append, hf] at hcdef
                exact Option.some.inj hcdef
              | some a => simp
        · rw [if_neg (fun e => hyf (Option.some.inj e).symm)]
          have : ¬ (B = [] ∧ y = c) := by
            rintro ⟨_, e⟩
            subst e
            cases A with
            | nil => rw [List.nil_append, hf] at hcdef; exact hyf (Option.some.inj hcdef).symm
            | cons a A' => simp at hcdef; apply hyA; simp [hcdef]
          rw [if_neg this, hg1y, if_neg hyf, hCprev y hyC hyf]
      · rw [q3, e1, hl]
        by_cases hyl : y = l
        · simp [hyl]
        · rw [if_neg hyl, if_neg (fun e => hyl (Option.some.inj e).symm), hg1y]
          have := hCnext y hyC hyl
          split
          · rename_i e; subst e; exact this
          · exact this
      · rw [q1, hg1y]
        have := hCfirst y hyC
        split
        · rename_i e; subst e; exact this
        · exact this
    · have n1 : y ≠ f := fun e => hyC (e ▸ hfC)
      have n4 : y ≠ l := fun e => hyC (e ▸ hlC)
      have hg1y : h1.get y = if A.getLast? = some y then { h.get y with parent := some P, next := some f }
          else if y = P ∧ A = [] then { h.get y with first := some f } else h.get y := by
        rw [hg1 y, if_neg n1]
      simp only [n4, false_or, if_false] at q2 q3
      by_cases hyA : y ∈ A
      · have hya : s'.alive y = true := haA y hyA
        have hyP : y ≠ P := fun e => hPnA (e ▸ hyA)
        have n5 : B.head? ≠ some y := fun e => hAB y hyA (List.mem_of_mem_head? e)
        rw [if_neg n5] at q2
        simp only [n5, false_or] at q4
        rw [entry_alive hya, link_child (s := s') (p := P) (by rw [hpar', if_neg hyC, hpA y hyA])]
        rw [hkids' P, if_pos rfl, hkids' y, if_neg hyP]
        rw [if_neg (show ¬ (y = P ∧ A = []) by simp [hyP])] at hg1y
        rw [nx_left _ hAnd hyA, pc_left _ hyA]
        have hgy := hgA y hyA
        rw [nx_left _ hAnd hyA, pc_left _ hyA] at hgy
        have hC1 : (C ++ B).head? = some f := by
          cases C with
          | nil => simp at hfC
          | cons _ _ => simpa using hf
        have hC2 : (C ++ B).getLast? = B.getLast?.or (some l) := by rw [List.getLast?_append, hl]
        have hcA : (y = c) ↔ A.head? = some y := by
          cases A with
          | nil => simp at hyA
          | cons a A' => simp at hcdef ⊢; rw [← hcdef]; exact eq_comm
        apply neighbors_ext
        · rw [q2, hg1y]; split <;> simp [hgy]
        · rw [q4, hC2]
          simp only [hcA]
          have hg1p : (h1.get y).prevCyc = (h.get y).prevCyc := by rw [hg1y]; split <;> rfl
          rw [hg1p, hgy]
          by_cases hh : A.head? = some y
          · cases B with
            | nil => simp [hh]
            | cons b B' =>
              obtain ⟨z, hz, _⟩ := getLast?_of_mem (l := b :: B') (x := b) (by simp)
              simp [hh, hz]
          · simp [hh]
        · rw [q3, hg1y, hC1]
          by_cases hh : A.getLast? = some y
          · simp [hh]
          · simp [hh, hgy]
        · rw [q1, hg1y]; split <;> simp [hgy]
      · have n2 : A.getLast? ≠ some y := fun e => hyA (List.mem_of_getLast? e)
        rw [if_neg n2] at hg1y
        by_cases hyB : y ∈ B
        · have hya : s'.alive y = true := haB y hyB
          have hyP : y ≠ P := fun e => hPnB (e ▸ hyB)
          rw [if_neg (show ¬ (y = P ∧ A = []) by simp [hyP])] at hg1y
          have hgy := hgB y hyB
          rw [entry_alive hya, link_child (s := s') (p := P) (by rw [hpar', if_neg hyC, hpB y hyB])]
          rw [hkids' P, if_pos rfl, hkids' y, if_neg hyP]
          have e0 : A ++ (C ++ B) = (A ++ C) ++ B := by simp
          have hyAC : y ∉ A ++ C := by simp [hyA, hyC]
          rw [e0, nx_right _ hyAC, pc_right _ hyAC hyB]
          rw [nx_right _ hyA, pc_right _ hyA hyB] at hgy
          have hBne : B ≠ [] := by intro e; simp [e] at hyB
          have hACl : (A ++ C).getLast? = some l := by rw [List.getLast?_append, hl]; rfl
          apply neighbors_ext
          · rw [q2, hg1y, hgy]; split <;> rfl
          · rw [q4, hACl, hg1y, hgy]
            by_cases hh : B.head? = some y
            · simp [hh]
            · simp [hh, hBne]
          · rw [q3, hg1y, hgy]
          · rw [q1, hg1y, hgy]
        · -- unrelated nodes and `P` itself
          have n5 : B.head? ≠ some y := fun e => hyB (List.mem_of_mem_head? e)
          have n6 : y ≠ c := fun e => by
            subst e
            rcases List.mem_append.1 hcmem with hm | hm
            · exact hyA hm
            · exact hyC hm
          simp only [n5, n6, and_false, or_false, if_false] at q2 q4
          have hg := hget y hyC hyE
          have hnotkid : y ∉ s.kids P := by rw [hkids]; simp [hyA, hyB]
          have hsp : s.parent y ≠ some P := fun e => hnotkid ((hv.mem_kids y P).2 e)
          have hpy : s'.parent y = s.parent y := by rw [hpar', if_neg hyC]
          by_cases hya : s.alive y = true
          · have hya' : s'.alive y = true := hya
            rw [entry_alive hya] at hg
            rw [entry_alive hya', link_eq]
            have hsibs : s'.sibs y = s.sibs y := by
              unfold sibs; rw [hpy]
              cases e : s.parent y with
              | none => rfl
              | some q => show s'.kids q = _; rw [hkids', if_neg (fun e' => hsp (by rw [e, e']))]
            rw [hpy, hsibs]
            by_cases hyP : y = P
            · subst hyP
              have hfy : s'.first y = some c := by
                unfold first; rw [hkids', if_pos rfl]
                have : A ++ (C ++ B) = (A ++ C) ++ B := by simp
                rw [this]
                cases hAC : A ++ C with
                | nil => rw [hAC] at hcdef; simp at hcdef
                | cons d D => rw [hAC] at hcdef; simpa using hcdef
              rw [hfy, ← hPfirst1]
              have hrest : (h1.get y).parent = s.parent y ∧ (h1.get y).prevCyc = pc (s.sibs y) y ∧
                  (h1.get y).next = nx (s.sibs y) y := by
                rw [hg1y, hg, link_eq]; split <;> simp
              exact neighbors_ext (q2.trans hrest.1) (q4.trans hrest.2.1) (q3.trans hrest.2.2) q1
            · rw [if_neg (show ¬ (y = P ∧ A = []) by simp [hyP])] at hg1y
              have : s'.first y = s.first y := by unfold first; rw [hkids', if_neg hyP]
              rw [this, ← link_eq, ← hg, ← hg1y]
              exact neighbors_ext q2 q4 q3 q1
          · have hya0 : s.alive y = false := by simpa using hya
            have hya' : s'.alive y = false := hya0
            have hyP : y ≠ P := fun e => hya (e ▸ hPa)
            rw [if_neg (show ¬ (y = P ∧ A = []) by simp [hyP])] at hg1y
            rw [entry_dead hya', ← entry_dead hya0, ← hg, ← hg1y]
            exact neighbors_ext q2 q4 q3 q1

end Treena
