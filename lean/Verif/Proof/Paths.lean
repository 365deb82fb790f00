import Verif.Proof.Attach
/-! Paths to the root, and the loops of `transplant` that follow them. -/
namespace Treena
open Hier Shape

namespace UpPath
variable {par : Nat → Option Nat}

theorem exists_of_rooted {x : Nat} (h : Rooted par x) : ∃ l, UpPath par x l := by
  induction h with
  | root h => exact ⟨_, .root h⟩
  | step h _ ih => obtain ⟨l, hl⟩ := ih; exact ⟨_, .step h hl⟩

theorem unique {x : Nat} {l l' : List Nat} (h : UpPath par x l) (h' : UpPath par x l') : l = l' := by
  induction h generalizing l' with
  | root h =>
    cases h' with
    | root _ => rfl
    | step h2 _ => rw [h] at h2; cases h2
  | step h _ ih =>
    cases h' with
    | root h2 => rw [h] at h2; cases h2
    | step h2 h3 => rw [h] at h2; cases h2; rw [ih h3]

theorem mem_iff {x a : Nat} {l : List Nat} (h : UpPath par x l) : a ∈ l ↔ AncOrSelf par a x := by
  induction h with
  | root h =>
    constructor
    · intro hm; simp at hm; subst hm; exact .refl
    · intro ha; cases ha with
      | refl => simp
      | step h2 _ => rw [h] at h2; cases h2
  | step h _ ih =>
    constructor
    · intro hm
      rcases List.mem_cons.1 hm with e | hm
      · subst e; exact .refl
      · exact .step h (ih.1 hm)
    · intro ha; cases ha with
      | refl => simp
      | step h2 h3 => rw [h] at h2; cases h2; exact List.mem_cons_of_mem _ (ih.2 h3)

theorem rooted {x : Nat} {l : List Nat} (h : UpPath par x l) : Rooted par x := by
  induction h with
  | root h => exact .root h
  | step h _ ih => exact .step h ih

theorem nodup {x : Nat} {l : List Nat} (h : UpPath par x l) : l.Nodup := by
  induction h with
  | root h => simp
  | @step x p l h hp ih =>
    refine List.nodup_cons.2 ⟨fun hm => ?_, ih⟩
    exact (Rooted.step h hp.rooted).acyclic h (hp.mem_iff.1 hm)

theorem ne_nil {x : Nat} {l : List Nat} (h : UpPath par x l) : l ≠ [] := by cases h <;> simp

end UpPath

theorem AncOrSelf.alive {s : Shape} (hv : s.Valid) {a x : Nat} (h : AncOrSelf s.parent a x)
    (hx : s.alive x = true) : s.alive a = true := by
  induction h with
  | refl => exact hx
  | step h _ ih => exact ih (hv.parent_alive _ _ h).2

/-- A descendant of a live node is live. -/
theorem AncOrSelf.alive_down {s : Shape} (hv : s.Valid) {a x : Nat} (h : AncOrSelf s.parent a x)
    (ha : s.alive a = true) : s.alive x = true := by
  cases h with
  | refl => exact ha
  | step h _ => exact (hv.parent_alive _ _ h).1

theorem Shape.Valid.path_length {s : Shape} (hv : s.Valid) {x : Nat} {l : List Nat}
    (h : UpPath s.parent x l) (hx : s.alive x = true) : l.length ≤ s.size :=
  nodup_length_le h.nodup fun _ hy => hv.alive_lt _ ((h.mem_iff.1 hy).alive hv hx)

/-- The arena reads the parents of the nodes of `l` as `par` does. -/
def ReadsPath (h : Hier) (par : Nat → Option Nat) (l : List Nat) : Prop :=
  ∀ y ∈ l, h.live y ∧ (h.get y).parent = par y

theorem ancestors_next_some {h : Hier} {n : Nat} (hl : h.live n) :
    Ancestors.next h (some n) = .ok (some n, (h.get n).parent) := by
  simp [Ancestors.next, neighbors_live hl, getParent_live hl]

theorem ancestorsMeet_eq {h : Hier} {par : Nat → Option Nat} {r x : Nat} {l : List Nat}
    (hp : UpPath par x l) (hr : ReadsPath h par l) {fuel : Nat} (hf : l.length < fuel) :
    ancestorsMeet h r fuel (some x) = .ok (decide (r ∈ l)) := by
  induction hp generalizing fuel with
  | @root x h0 =>
    obtain ⟨hl, hpar⟩ := hr x (by simp)
    match fuel, hf with
    | fuel + 2, hf =>
      simp only [ancestorsMeet, ancestors_next_some hl, hpar, h0]
      by_cases e : x = r
      · simp [e]
      · have : ¬ r = x := fun e' => e e'.symm
        simp [e, this, Ancestors.next]
    | 1, hf => simp at hf
  | @step x p l h0 hp ih =>
    obtain ⟨hl, hpar⟩ := hr x (by simp)
    match fuel, hf with
    | fuel + 1, hf =>
      simp only [ancestorsMeet, ancestors_next_some hl, hpar, h0]
      by_cases e : x = r
      · simp [e]
      · have : ¬ r = x := fun e' => e e'.symm
        simp only [e, if_false]
        rw [ih (fun y hy => hr y (by simp [hy])) (by simp at hf; omega)]
        simp [this]

theorem rangeLoop_eq {h : Hier} {par : Nat → Option Nat} {first last rp x : Nat} {l : List Nat}
    (hp : UpPath par x l) (hr : ReadsPath h par l) (hrp : rp ∉ l) {fuel inner prevA : Nat}
    (hf : l.length < fuel) :
    rangeLoop h first last rp inner fuel (some x) prevA = .ok false := by
  induction hp generalizing fuel with
  | @root x h0 =>
    obtain ⟨hl, hpar⟩ := hr x (by simp)
    have hne : x ≠ rp := fun e => hrp (by simp [e])
    match fuel, hf with
    | fuel + 2, hf =>
      simp only [rangeLoop, ancestors_next_some hl, hpar, h0]
      rw [if_pos hne]; simp [Ancestors.next]
    | 1, hf => simp at hf
  | @step x p l h0 hp ih =>
    obtain ⟨hl, hpar⟩ := hr x (by simp)
    have hne : x ≠ rp := fun e => hrp (by simp [e])
    match fuel, hf with
    | fuel + 1, hf =>
      simp only [rangeLoop, ancestors_next_some hl, hpar, h0]
      rw [if_pos hne]
      exact ih (fun y hy => hr y (by simp [hy])) (fun hm => hrp (by simp [hm])) (by simp at hf; omega)

/-- The loop rewriting the parents of a chain of siblings. -/
theorem rewriteParents_eq {P l f : Nat} {C : List Nat} (hnd : C.Nodup) (hPC : P ∉ C) :
    ∀ {h : Hier} {fuel : Nat}, C.head? = some f → C.getLast? = some l → C.length ≤ fuel →
      (∀ c ∈ C, h.live c) → (∀ c ∈ C, c ≠ l → (h.get c).next = nx C c) →
      ∃ h', rewriteParents P l fuel (some f) h = .ok () h' ∧ h'.nbrs.length = h.nbrs.length ∧
        ∀ y, h'.get y = if y ∈ C then { h.get y with parent := some P } else h.get y := by
  induction C generalizing f with
  | nil => intro h fuel hf; simp at hf
  | cons c C ih =>
    intro h fuel hf hl hfu hlive hnext
    simp at hf; subst hf
    have hcl := hlive c (by simp)
    have hcP : c ≠ P := fun e => hPC (by simp [e])
    match fuel, hfu with
    | fuel + 1, hfu =>
      have hlive' : (h.put c { h.get c with parent := some P }).live c := by
        rw [live_put (live_lt hcl)]; rw [if_pos rfl]; exact hcl
      cases C with
      | nil =>
        simp at hl; subst hl
        refine ⟨h.put c { h.get c with parent := some P }, ?_, by simp, fun y => ?_⟩
        · simp [rewriteParents, hcP, updNbr_live hcl]
        · rw [get_put (live_lt hcl)]
          by_cases e : y = c <;> simp [e]
      | cons d C' =>
        have hl' : (d :: C').getLast? = some l := by rw [List.getLast?_cons_cons] at hl; exact hl
        rw [List.nodup_cons] at hnd
        have hlmem : l ∈ d :: C' := List.mem_of_getLast? hl'
        have hcl' : c ≠ l := fun e => hnd.1 (e ▸ hlmem)
        have hcn : (h.get c).next = some d := by
          rw [hnext c (by simp) hcl']; simp [nx]
        obtain ⟨h', hrun, hlen, hget⟩ := ih hnd.2 (fun hm => hPC (by simp [hm])) (f := d)
          (h := h.put c { h.get c with parent := some P }) (fuel := fuel) rfl hl'
          (by simpa using hfu)
          (by
            intro e he
            rw [live_put (live_lt hcl)]; split
            · exact hcl
            · exact hlive e (by simp at he ⊢; right; exact he))
          (by
            intro e he hel
            rw [get_put (live_lt hcl), if_neg (fun e' : e = c => hnd.1 (e' ▸ he))]
            rw [hnext e (List.mem_cons_of_mem _ he) hel]
            have := nx_right (A := [c]) (d :: C') (y := e) (by simp; exact fun e' => hnd.1 (e' ▸ he))
            simpa using this)
        refine ⟨h', ?_, by simpa using hlen, fun y => ?_⟩
        · have hg : (h.put c { h.get c with parent := some P }).get c = { h.get c with parent := some P } := by
            rw [get_put (live_lt hcl), if_pos rfl]
          have hns : ((h.put c { h.get c with parent := some P }).get c).nextSibling = .ok (some d) := by
            rw [nextSibling_live hlive', hg]; exact congrArg Except.ok hcn
          simp [rewriteParents, hcP, updNbr_live hcl, hcl', nbrOf_live hlive', M.read, hns, hrun]
        · rw [hget y, get_put (live_lt hcl)]
          by_cases e : y = c
          · subst e; simp [hnd.1]
          · simp [e]

end Treena
