import Verif.Proof.Clone
import Verif.Proof.Order
/-!
# The correspondence between a tree and its copy
-/
namespace Treena
variable {T : Type}
namespace Tree

/-- Source nodes with the numbers of their copies. -/
def pairs {α : Type} (t : Tree α) (b : Nat) : List (α × Nat) := t.preorder.zip (List.range' b t.count)
def pairsL {α : Type} (ts : List (Tree α)) (b : Nat) : List (α × Nat) := (preorderL ts).zip (List.range' b (countL ts))

theorem pairs_node {α : Type} (a : α) (ts : List (Tree α)) (b : Nat) :
    (Tree.node a ts).pairs b = (a, b) :: pairsL ts (b + 1) := by
  simp [pairs, pairsL, preorder, count, List.range'_succ]

theorem pairsL_cons {α : Type} (t : Tree α) (ts : List (Tree α)) (b : Nat) :
    pairsL (t :: ts) b = t.pairs b ++ pairsL ts (b + t.count) := by
  simp only [pairs, pairsL, preorderL, countL]
  rw [← List.range'_append_1, List.zip_append (by simp [length_preorder])]

mutual
theorem pairs_kids {K K' : Nat → List Nat} : ∀ (t : Tree Nat) (b : Nat), IsTree K t → IsTree K' (t.number b) →
    ∀ q ∈ t.pairs b, (K q.1).length = (K' q.2).length ∧ ∀ r ∈ (K q.1).zip (K' q.2), r ∈ t.pairs b
  | .node x ts, b, ht, ht', q, hq => by
    rw [pairs_node] at hq ⊢
    simp only [number, IsTree] at ht ht'
    rcases List.mem_cons.1 hq with rfl | hq
    · obtain ⟨h1, h2⟩ := pairsL_roots ts (b + 1)
      rw [ht.1, ht'.1]
      exact ⟨h1, fun r hr => List.mem_cons_of_mem _ (h2 r hr)⟩
    · obtain ⟨h1, h2⟩ := pairsL_kids ts (b + 1) ht.2 ht'.2 q hq
      exact ⟨h1, fun r hr => List.mem_cons_of_mem _ (h2 r hr)⟩
theorem pairsL_kids {K K' : Nat → List Nat} : ∀ (ts : List (Tree Nat)) (b : Nat), IsForest K ts →
    IsForest K' (numberL b ts) →
    ∀ q ∈ pairsL ts b, (K q.1).length = (K' q.2).length ∧ ∀ r ∈ (K q.1).zip (K' q.2), r ∈ pairsL ts b
  | [], b, _, _, q, hq => by simp [pairsL, preorderL] at hq
  | t :: ts, b, ht, ht', q, hq => by
    rw [pairsL_cons] at hq ⊢
    simp only [numberL, IsForest] at ht ht'
    rcases List.mem_append.1 hq with hq | hq
    · obtain ⟨h1, h2⟩ := pairs_kids t b ht.1 ht'.1 q hq
      exact ⟨h1, fun r hr => List.mem_append_left _ (h2 r hr)⟩
    · obtain ⟨h1, h2⟩ := pairsL_kids ts _ ht.2 ht'.2 q hq
      exact ⟨h1, fun r hr => List.mem_append_right _ (h2 r hr)⟩
theorem pairsL_roots : ∀ (ts : List (Tree Nat)) (b : Nat),
    (ts.map root).length = ((numberL b ts).map root).length ∧
    ∀ r ∈ (ts.map root).zip ((numberL b ts).map root), r ∈ pairsL ts b
  | [], b => by simp [numberL]
  | t :: ts, b => by
    obtain ⟨h1, h2⟩ := pairsL_roots ts (b + t.count)
    simp only [numberL, List.map_cons, List.length_cons, List.zip_cons_cons, List.mem_cons, pairsL_cons,
      List.mem_append, root_number]
    refine ⟨by omega, ?_⟩
    rintro r (rfl | hr)
    · left
      cases t with
      | node x us => rw [pairs_node]; simp [root]
    · exact .inr (h2 r hr)
end

theorem pairs_fst {α : Type} (t : Tree α) (b : Nat) : (t.pairs b).map (·.1) = t.preorder := by
  rw [pairs, List.map_fst_zip (by simp [length_preorder])]
theorem pairs_snd {α : Type} (t : Tree α) (b : Nat) : (t.pairs b).map (·.2) = List.range' b t.count := by
  rw [pairs, List.map_snd_zip (by simp [length_preorder])]

end Tree

theorem copied_corresponds {f : Forest T} {s s' ss : Shape} {cl : T → Option T} {dat : Nat → Option T} {t : Tree Nat}
    {g : Forest T} (hs : ss.Valid) (ht : Tree.IsTree ss.kids t)
    (hdl : f.data.length = s.size) (hc : Copied f s cl dat t g s') :
    Corresponds ss.parent ss.kids dat cl t.root s.size s.size (t.pairs s.size) g s' := by
  have hv' := hc.grown.models.valid
  have hroot' : s'.alive s.size = true := by
    refine hc.alive _ (Nat.le_refl _) ?_
    rw [hc.size]; cases t; simp [Tree.count]
  have hkids := Tree.pairs_kids t s.size ht hc.tree
  have hsrc : ∀ y, y ∈ (t.pairs s.size).map (·.1) ↔ AncOrSelf ss.parent t.root y := fun y => by
    rw [Tree.pairs_fst, Tree.mem_preorder_iff hs ht]
  have hnd : ((t.pairs s.size).map (·.1)).Nodup := by rw [Tree.pairs_fst]; exact Tree.preorder_nodup hs t ht
  refine ⟨hsrc, hnd, ?_, fun y => ?_, fun q hq => ?_, ⟨?_, hc.root⟩, hkids, fun q hq => ?_, fun q hq => ?_⟩
  · rw [Tree.pairs_snd]; exact List.nodup_range'
  · rw [Tree.pairs_snd, ← Tree.preorder_number t s.size, Tree.mem_preorder_iff hv' hc.tree, Tree.root_number]
  · have : q.2 ∈ (t.pairs s.size).map (·.2) := List.mem_map_of_mem hq
    rw [Tree.pairs_snd, List.mem_range'_1] at this
    exact ⟨this.1, by rw [hc.size]; exact this.2, hc.alive _ this.1 (by rw [hc.size]; exact this.2)⟩
  · cases t; rw [Tree.pairs_node]; rfl
  · have h1 := (hsrc q.1).1 (List.mem_map_of_mem hq)
    obtain ⟨a, b⟩ := q
    have huniq : ∀ c, (a, c) ∈ t.pairs s.size → c = b := by
      intro c hc'
      obtain ⟨i, hi, e1⟩ := List.getElem_of_mem hc'
      obtain ⟨j, hj, e2⟩ := List.getElem_of_mem hq
      have : i = j := by
        refine (List.getElem_inj (xs := (t.pairs s.size).map (·.1)) (h₀ := by simpa using hi)
          (h₁ := by simpa using hj) hnd).1 ?_
        simp [e1, e2]
      subst this
      rw [e1] at e2; cases e2; rfl
    by_cases ha : a = t.root
    · left
      subst ha
      have : (t.root, s.size) ∈ t.pairs s.size := by cases t; rw [Tree.pairs_node]; simp [Tree.root]
      rw [huniq _ this]
    · right
      simp only at h1
      cases h1 with
      | refl => exact absurd rfl ha
      | step hp hanc =>
        rename_i p
        have hpm := (hsrc p).2 hanc
        rw [List.mem_map] at hpm
        obtain ⟨⟨p', q⟩, hpq, rfl⟩ := hpm
        simp only at *
        have hk := (hs.mem_kids a p').2 hp
        obtain ⟨h2, h3⟩ := hkids _ hpq
        obtain ⟨i, hi, e⟩ := List.getElem_of_mem hk
        have hi' : i < (s'.kids q).length := by rw [← h2]; exact hi
        have hz : (a, (s'.kids q)[i]) ∈ (ss.kids p').zip (s'.kids q) := by
          rw [← e, List.mem_iff_getElem]
          exact ⟨i, by rw [List.length_zip]; exact Nat.lt_min.2 ⟨hi, hi'⟩, by simp⟩
        have := huniq _ (h3 _ hz)
        exact ⟨(p', q), hpq, hp, (hv'.mem_kids b q).1 (by rw [← this]; simp)⟩
  · obtain ⟨i, hi, e⟩ := List.getElem_of_mem hq
    have hi' : i < t.preorder.length := by
      simp only [Tree.pairs, List.length_zip, List.length_range', Tree.length_preorder, Nat.min_self] at hi
      rw [Tree.length_preorder]; exact hi
    have e' : q = (t.preorder[i], s.size + i) := by
      rw [← e]; simp [Tree.pairs]
    subst e'
    simp only [Forest.getData, hc.data, copies]
    rw [List.getElem?_append_right (by omega), hdl]
    simp [hi']

end Treena
