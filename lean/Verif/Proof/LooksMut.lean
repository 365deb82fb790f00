import Verif.Proof.LooksClient
/-!
# How much of a forest `detach` looks at
-/
set_option autoImplicit false
namespace Treena
variable {T : Type} {α β γ : Type} {j k : Nat} {cap um : Nat}

/-- What a call returns. -/
def Res.outcome {σ : Type} : Res σ α → R α
  | .ok a _ => .ok a
  | .fail e _ => .error e

/-- `AgreeAt` for the links. -/
def SameH (L : List Nat) (h g : Hier) : Prop := ∀ x ∈ L, g.nbrs[x]? = h.nbrs[x]?
/-- `Looks` for the links. -/
def LooksH (k : Nat) (h : Hier) (F : Hier → α) : Prop := ∃ L, L.length ≤ k ∧ ∀ g, SameH L h g → F g = F h
/-- `Touches` for the links. -/
def TouchesH (k : Nat) (h : Hier) (m : M Hier α) : Prop :=
  ∃ L, L.length ≤ k ∧ ∀ g, SameH L h g →
    (m g).outcome = (m h).outcome ∧ SameH L (m h).state (m g).state ∧ ∀ x, x ∉ L → (m g).state.nbrs[x]? = g.nbrs[x]?

namespace TouchesH
variable {h : Hier}

theorem mono {m : M Hier α} (ht : TouchesH j h m) (hk : j ≤ k) : TouchesH k h m :=
  let ⟨L, l, e⟩ := ht; ⟨L, Nat.le_trans l hk, e⟩
theorem read {F : Hier → R α} (hF : LooksH k h F) : TouchesH k h (M.read F) := by
  obtain ⟨L, l, e⟩ := hF
  refine ⟨L, l, fun g hg => ?_⟩
  unfold M.read
  rw [e g hg]
  cases F h <;> exact ⟨rfl, hg, fun _ _ => rfl⟩
theorem pure (a : α) : TouchesH k h (Pure.pure a : M Hier α) := ⟨[], Nat.zero_le _, fun _ hg => ⟨rfl, hg, fun _ _ => rfl⟩⟩
theorem panic (msg : String) : TouchesH k h (M.panic msg : M Hier α) := ⟨[], Nat.zero_le _, fun _ hg => ⟨rfl, hg, fun _ _ => rfl⟩⟩
theorem bind {m : M Hier α} {c : α → M Hier β} (hm : TouchesH j h m) (hc : ∀ a, (m h).outcome = .ok a → TouchesH k (m h).state (c a)) :
    TouchesH (j + k) h (m >>= c) := by
  obtain ⟨L, l, e⟩ := hm
  have e0 := e h fun _ _ => rfl
  cases hv : m h with
  | fail x s =>
    refine ⟨L, by omega, fun g hg => ?_⟩
    obtain ⟨e1, e2, e3⟩ := e g hg
    rw [hv] at e1 e2
    rw [M.run_bind, M.run_bind, hv]
    cases hg' : m g with
    | ok a s' => rw [hg'] at e1; cases e1
    | fail x' s' =>
      rw [hg'] at e1 e2 e3
      cases e1
      exact ⟨rfl, e2, e3⟩
  | ok a s =>
    rw [hv] at hc e0
    obtain ⟨L', l', e'⟩ := hc a rfl
    refine ⟨L ++ L', by simp; omega, fun g hg => ?_⟩
    obtain ⟨e1, e2, e3⟩ := e g fun x hx => hg x (by simp [hx])
    rw [hv] at e1 e2
    rw [M.run_bind, M.run_bind, hv]
    cases hg' : m g with
    | fail x' s' => rw [hg'] at e1; cases e1
    | ok a' s' =>
      rw [hg'] at e1 e2 e3
      cases e1
      have hs : ∀ x ∈ L ++ L', s'.nbrs[x]? = s.nbrs[x]? := fun x hx => by
        by_cases h1 : x ∈ L
        · exact e2 x h1
        · exact ((e3 x h1).trans (hg x hx)).trans (e0.2.2 x h1).symm
      obtain ⟨f1, f2, f3⟩ := e' s' fun x hx => hs x (by simp [hx])
      refine ⟨f1, fun x hx => ?_, fun x hx => ?_⟩
      · by_cases h1 : x ∈ L'
        · exact f2 x h1
        · exact ((f3 x h1).trans (hs x hx)).trans ((e' s fun _ _ => rfl).2.2 x h1).symm
      · have hx' : x ∉ L ∧ x ∉ L' := by simpa using hx
        exact (f3 x hx'.2).trans (e3 x hx'.1)
theorem updNbr (x : Nat) (msg : String) (u : Neighbors → Neighbors) : TouchesH 1 h (Hier.updNbr x msg u) := by
  refine ⟨[x], by simp, fun g hg => ?_⟩
  have hx : g.nbrs[x]? = h.nbrs[x]? := hg x (by simp)
  have e : g.neighbors x = h.neighbors x := by unfold Hier.neighbors; rw [hx]
  unfold Hier.updNbr
  rw [e]
  cases hn : h.neighbors x with
  | none => exact ⟨rfl, hg, fun _ _ => rfl⟩
  | some nb =>
    refine ⟨rfl, fun y hy => ?_, fun y hy => ?_⟩
    · cases List.mem_singleton.mp hy
      have hl : x < g.nbrs.length ↔ x < h.nbrs.length := by
        constructor
        · intro hl
          rw [List.getElem?_eq_getElem hl] at hx
          exact (List.getElem?_eq_some_iff.mp hx.symm).1
        · intro hl
          rw [List.getElem?_eq_getElem hl] at hx
          exact (List.getElem?_eq_some_iff.mp hx).1
      show (g.nbrs.set x (u nb))[x]? = (h.nbrs.set x (u nb))[x]?
      rw [List.getElem?_set, List.getElem?_set]
      simp [hl]
    · show (g.nbrs.set x (u nb))[y]? = g.nbrs[y]?
      exact List.getElem?_set_ne fun e => hy (by simp [e])
end TouchesH

namespace LooksH
variable {h : Hier}
theorem of {F : Hier → α} (hF : Looks k (⟨h, []⟩ : Forest Unit) fun g => F g.hier) : LooksH k h F :=
  let ⟨L, l, e⟩ := hF
  ⟨L, l, fun g hg => e ⟨g, []⟩ fun x hx => ⟨hg x hx, rfl⟩⟩
end LooksH

namespace TouchesH
variable {h : Hier}
theorem nbrOf (x : Nat) (msg : String) : TouchesH 1 h (Hier.nbrOf x msg) :=
  read (LooksH.of (by look (Looks.nbr x) 0 with (_ | _) <;> exact Looks.const _))
theorem const {r : R α} : TouchesH 0 h (M.read fun _ => r) := read ⟨[], Nat.le_refl _, fun _ _ => rfl⟩
theorem connectPrev (p a b : Option Nat) : TouchesH 1 h (Hier.connectPrev p a b) := by
  cases a with
  | none => exact pure _
  | some x => exact updNbr _ _ _
theorem nextCyc (p a : Option Nat) (n : Nat) : LooksH 2 h fun h => Hier.nextChildPrevCyclic h p a n := by
  refine LooksH.of ?_
  unfold Hier.nextChildPrevCyclic
  cases a with
  | some x => exact Looks.const _
  | none =>
    cases p with
    | none => exact Looks.const _
    | some p =>
      dsimp only
      look (Looks.nbr p) 1 with (_ | nb)
      simp only [expect]
      look (Looks.lastChild nb) 0 with (_ | _)
theorem connectNext (p a b : Option Nat) : TouchesH 3 h (Hier.connectNext p a b) := by
  cases b with
  | none => exact pure _
  | some n => exact bind (read (nextCyc p a n)) fun _ _ => updNbr _ _ _
theorem connectParent (p a b : Option Nat) : TouchesH 2 h (Hier.connectParent p a b) := by
  cases p with
  | none => exact pure _
  | some p =>
    cases a with
    | none => exact mono (updNbr _ _ _) (by omega)
    | some a =>
      cases b with
      | some b => exact pure _
      | none =>
        exact bind (j := 1) (k := 1) (nbrOf _ _) fun nb _ => bind (j := 0) (k := 1) const fun fc _ => bind (j := 0) (k := 1) const fun c _ => updNbr _ _ _
theorem connectTriangle (p a b : Option Nat) : TouchesH 6 h (Hier.connectTriangle p a b) := by
  unfold Hier.connectTriangle
  split
  · exact panic _
  · split
    · exact panic _
    · exact bind (j := 1) (k := 5) (connectPrev p a b) fun _ _ => bind (j := 3) (k := 2) (connectNext p a b) fun _ _ => connectParent p a b
theorem detach (x : Nat) : TouchesH 9 h (Hier.detach x) := by
  unfold Hier.detach
  refine bind (j := 1) (k := 8) (nbrOf _ _) fun nb _ => bind (j := 0) (k := 8) const fun p _ => ?_
  cases p with
  | none => exact pure _
  | some p =>
    exact bind (j := 1) (k := 7) (read (LooksH.of (Looks.prevSibling nb))) fun a _ => bind (j := 0) (k := 7) const fun b _ =>
      bind (j := 6) (k := 1) (connectTriangle _ _ _) fun _ _ => updNbr _ _ _
end TouchesH

namespace Touches
variable {f : Forest T}

theorem onHier {m : M Hier α} (c : α → Ans T) (hm : TouchesH k f.hier m) :
    Touches k f fun g => Ans.ofRes c (Forest.onHier m g) := by
  obtain ⟨L, l, e⟩ := hm
  refine ⟨L, l, fun g hg => ?_⟩
  obtain ⟨e1, e2, e3⟩ := e g.hier fun x hx => (hg x hx).1
  simp only [Forest.onHier, M.zoom]
  cases hv : m f.hier with
  | ok a s =>
    cases hv' : m g.hier with
    | ok a' s' =>
      rw [hv, hv'] at e1 e2
      rw [hv'] at e3
      cases e1
      exact ⟨rfl, fun x hx => ⟨e2 x hx, (hg x hx).2⟩, fun x hx => ⟨e3 x hx, rfl⟩⟩
    | fail x' s' => rw [hv, hv'] at e1; cases e1
  | fail x s =>
    cases hv' : m g.hier with
    | ok a' s' => rw [hv, hv'] at e1; cases e1
    | fail x' s' =>
      rw [hv, hv'] at e1 e2
      rw [hv'] at e3
      cases e1
      exact ⟨rfl, fun x hx => ⟨e2 x hx, (hg x hx).2⟩, fun x hx => ⟨e3 x hx, rfl⟩⟩

theorem detach (b : Build) (x : Nat) : Touches 9 f fun g => b.exec cap um g (.detach x) := onHier _ (TouchesH.detach x)

theorem setData (b : Build) (x : Nat) (v : T) : Touches 1 f fun g => b.exec cap um g (.setData x v) := by
  refine ⟨[x], by simp, fun g hg => ?_⟩
  have hx := (hg x (by simp)).2
  have e : g.getData x = f.getData x := by unfold Forest.getData; rw [hx]
  simp only [Build.exec, Req.exec, Forest.setData, e]
  cases f.getData x with
  | none => exact ⟨rfl, hg, fun _ _ => ⟨rfl, rfl⟩⟩
  | some d =>
    refine ⟨rfl, fun y hy => ?_, fun y hy => ?_⟩
    · cases List.mem_singleton.mp hy
      refine ⟨(hg x hy).1, ?_⟩
      have hl : x < g.data.length ↔ x < f.data.length := by
        constructor
        · intro hl
          rw [List.getElem?_eq_getElem hl] at hx
          exact (List.getElem?_eq_some_iff.mp hx.symm).1
        · intro hl
          rw [List.getElem?_eq_getElem hl] at hx
          exact (List.getElem?_eq_some_iff.mp hx).1
      show (g.data.set x (some v))[x]? = (f.data.set x (some v))[x]?
      rw [List.getElem?_set, List.getElem?_set]
      simp [hl]
    · exact ⟨rfl, List.getElem?_set_ne fun e => hy (by simp [e])⟩
end Touches
end Treena
