import Verif.Proof.Deque
import Verif.Proof.Trees
import Verif.Proof.ForestOps
/-! Depth-first traversers emit the event lists of the tree. -/

namespace Treena
open Hier

variable {h : Hier} {s : Shape}

theorem travNbr_alive (ha : Agrees h s) (hv : s.Valid) {x : Nat} (hx : s.alive x = true) :
    travNbr h x = .ok (h.get x) := by
  unfold travNbr; rw [neighbors_live ((ha.live_iff hv x).2 hx)]; rfl

namespace Agrees

theorem firstChild_get (ha : Agrees h s) (hv : s.Valid) {x : Nat} (hx : s.alive x = true) :
    (h.get x).firstChild = .ok (s.kids x).head? := by
  rw [firstChild_live ((ha.live_iff hv x).2 hx), ha.get_alive hx]; rfl

theorem nextSibling_get (ha : Agrees h s) (hv : s.Valid) {x : Nat} (hx : s.alive x = true) :
    (h.get x).nextSibling = .ok (s.next x) := by
  rw [nextSibling_live ((ha.live_iff hv x).2 hx), ha.get_alive hx]; rfl

theorem getParent_get (ha : Agrees h s) (hv : s.Valid) {x : Nat} (hx : s.alive x = true) :
    (h.get x).getParent = .ok (s.parent x) := by
  rw [getParent_live ((ha.live_iff hv x).2 hx), ha.get_alive hx]; rfl

end Agrees

/-! ### Siblings inside a child list -/

theorem next_mid (hv : s.Valid) {x a b : Nat} {pre post : List Nat}
    (hk : s.kids x = pre ++ a :: b :: post) : s.next a = some b := by
  have hp : s.parent a = some x := hv.kid_parent (by rw [hk]; simp)
  have hnd := hv.kids_nodup x
  unfold Shape.next
  rw [Shape.sibs_child hp, hk, after_append_right, after_cons]
  · simp
  · rw [hk] at hnd; intro hm; exact (List.nodup_append.1 hnd).2.2 a hm a (by simp) rfl

theorem prev_mid (hv : s.Valid) {x a b : Nat} {pre post : List Nat}
    (hk : s.kids x = pre ++ a :: b :: post) : s.prev b = some a := by
  have hp : s.parent b = some x := hv.kid_parent (by rw [hk]; simp)
  have hnd := hv.kids_nodup x
  unfold Shape.prev
  rw [hk] at hnd
  have hb : b ∉ pre := fun hm => (List.nodup_append.1 hnd).2.2 b hm b (by simp) rfl
  have hab : a ≠ b := by
    have := (List.nodup_append.1 hnd).2.1
    simp at this; intro e; exact this.1.1 e
  rw [Shape.sibs_child hp, hk, before_append_right _ hb, before_cons, if_neg hab, before_cons]
  simp

theorem next_last (hv : s.Valid) {x a : Nat} {pre : List Nat}
    (hk : s.kids x = pre ++ [a]) : s.next a = none := by
  have hp : s.parent a = some x := hv.kid_parent (by rw [hk]; simp)
  have hnd := hv.kids_nodup x
  unfold Shape.next
  rw [Shape.sibs_child hp, hk, after_append_right, after_cons]
  · simp
  · rw [hk] at hnd; intro hm; exact (List.nodup_append.1 hnd).2.2 a hm a (by simp) rfl

theorem prev_first (hv : s.Valid) {x a : Nat} {post : List Nat}
    (hk : s.kids x = a :: post) : s.prev a = none := by
  have hp : s.parent a = some x := hv.kid_parent (by rw [hk]; simp)
  unfold Shape.prev
  rw [Shape.sibs_child hp, hk, before_cons]
  simp

/-! ### Generic event chains -/

namespace Tree

mutual
/-- Events built by `o` (open) and `c` (close); below a node at a depth satisfying `lim` nothing is
visited. -/
def gev {ε : Type} (o c : Nat → Nat → ε) (lim : Nat → Bool) (d : Nat) : Tree Nat → List ε
  | .node x ts => o x d :: ((if lim d then [] else gevL o c lim (d + 1) ts) ++ [c x d])
def gevL {ε : Type} (o c : Nat → Nat → ε) (lim : Nat → Bool) (d : Nat) : List (Tree Nat) → List ε
  | [] => []
  | t :: ts => gev o c lim d t ++ gevL o c lim d ts
end

/-- What the step relation of a traverser has to satisfy. -/
structure Steps {ε : Type} (s : Shape) (o c : Nat → Nat → ε) (lim : Nat → Bool)
    (R : ε → ε → Prop) : Prop where
  leaf : ∀ x d, s.alive x = true → (lim d = true ∨ s.kids x = []) → R (o x d) (c x d)
  down : ∀ x d a post, s.alive x = true → lim d = false → s.kids x = a :: post →
    R (o x d) (o a (d + 1))
  over : ∀ x d a b pre post, s.alive x = true → s.kids x = pre ++ a :: b :: post →
    R (c a (d + 1)) (o b (d + 1))
  up : ∀ x d a pre, s.alive x = true → lim d = false → s.kids x = pre ++ [a] →
    R (c a (d + 1)) (c x d)

variable {ε : Type} {o c : Nat → Nat → ε} {lim : Nat → Bool} {R : ε → ε → Prop}

theorem head?_gev (d : Nat) (t : Tree Nat) : (gev o c lim d t).head? = some (o t.root d) := by
  cases t; simp [gev, root]

theorem getLast?_gev (d : Nat) (t : Tree Nat) : (gev o c lim d t).getLast? = some (c t.root d) := by
  cases t with
  | node x ts =>
    simp only [gev, root]
    rw [← List.cons_append, List.getLast?_concat]

mutual
theorem chain_gev (hv : s.Valid) (hR : Steps s o c lim R) : ∀ (t : Tree Nat) (d : Nat),
    IsTree s.kids t → s.alive t.root = true → (gev o c lim d t).IsChain R
  | .node x ts, d, ⟨h1, h2⟩, hx => by
    simp only [root] at hx
    unfold gev
    by_cases hl : lim d = true
    · simp [hl]; exact hR.leaf x d hx (.inl hl)
    · have hl' : lim d = false := by simpa using hl
      simp only [hl', Bool.false_eq_true, if_false]
      cases ts with
      | nil => simp [gevL]; exact hR.leaf x d hx (.inr (by simpa using h1))
      | cons t ts =>
        obtain ⟨hc, hh, z, hz, hz'⟩ := chain_gevL hv hR (t :: ts) d x [] hx (by simpa using h1) h2 (by simp)
        rw [← List.singleton_append, List.isChain_append, List.isChain_append]
        refine ⟨by simp, ⟨hc, by simp, ?_⟩, ?_⟩
        · intro u hu v hv'
          rw [hz] at hu; simp at hu hv'; subst hu hv'
          obtain ⟨pre, hpre⟩ := List.getLast?_eq_some_iff.1 hz'
          exact hR.up x d z pre hx hl' (by rw [h1]; exact hpre)
        · intro u hu v hv'
          simp at hu; subst hu
          rw [List.head?_append, hh] at hv'
          simp at hv'; subst hv'
          exact hR.down x d t.root (ts.map root) hx hl' (by rw [h1]; simp)
theorem chain_gevL (hv : s.Valid) (hR : Steps s o c lim R) : ∀ (ts : List (Tree Nat)) (d x : Nat)
    (pre : List Nat), s.alive x = true → s.kids x = pre ++ ts.map root → IsForest s.kids ts → ts ≠ [] →
    (gevL o c lim (d + 1) ts).IsChain R ∧
      (gevL o c lim (d + 1) ts).head? = ts.head?.map (fun t => o t.root (d + 1)) ∧
      ∃ z, (gevL o c lim (d + 1) ts).getLast? = some (c z (d + 1)) ∧ (ts.map root).getLast? = some z
  | [], _, _, _, _, _, _, hne => absurd rfl hne
  | [t], d, x, pre, hx, hk, hf, _ => by
    have ha : s.alive t.root = true := hv.kid_alive (p := x) (by rw [hk]; simp)
    have := chain_gev hv hR t (d + 1) hf.1 ha
    simp only [gevL, List.append_nil]
    exact ⟨this, by rw [head?_gev]; rfl, t.root, getLast?_gev _ _, by simp⟩
  | t :: t' :: ts, d, x, pre, hx, hk, hf, _ => by
    have ha : s.alive t.root = true := hv.kid_alive (p := x) (by rw [hk]; simp)
    have h1 := chain_gev hv hR t (d + 1) hf.1 ha
    obtain ⟨h2, h3, z, h4, h5⟩ := chain_gevL hv hR (t' :: ts) d x (pre ++ [t.root]) hx (by rw [hk]; simp)
      hf.2 (by simp)
    refine ⟨?_, ?_, z, ?_, by simp at h5 ⊢; exact h5⟩
    · rw [gevL, List.isChain_append]
      refine ⟨h1, h2, ?_⟩
      intro u hu v hv'
      rw [getLast?_gev] at hu; rw [h3] at hv'
      simp at hu hv'; subst hu hv'
      exact hR.over x d t.root t'.root pre (ts.map root) hx (by rw [hk]; simp)
    · rw [gevL, List.head?_append, head?_gev]; rfl
    · rw [gevL, List.getLast?_append, h4]; rfl
end

end Tree
end Treena
