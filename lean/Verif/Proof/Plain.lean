import Verif.Spec.Plain
import Verif.Proof.Trees
import Verif.Proof.CreateInsert
import Verif.Proof.Remove
import Verif.Proof.Builders
import Verif.Props.Copy
import Verif.Props.Traverse
import Verif.Props.Detach
/-!
# The naive implementation simulates the modelled code: trees and shapes
-/
set_option autoImplicit false

namespace Treena
variable {T : Type}

namespace Tree
variable {α β : Type}

mutual
theorem ind_ {P : Tree α → Prop} (h : ∀ a ts, (∀ t ∈ ts, P t) → P (.node a ts)) : ∀ t, P t
  | .node a ts => h a ts (indL_ h ts)
theorem indL_ {P : Tree α → Prop} (h : ∀ a ts, (∀ t ∈ ts, P t) → P (.node a ts)) : ∀ ts : List (Tree α), ∀ t ∈ ts, P t
  | [] => by simp
  | t :: ts => List.forall_mem_cons.2 ⟨ind_ h t, indL_ h ts⟩
end

/-- Induction on trees. -/
theorem ind {P : Tree α → Prop} (h : ∀ a ts, (∀ t ∈ ts, P t) → P (.node a ts)) (t : Tree α) : P t := ind_ h t

theorem preorderL_eq : ∀ ts : List (Tree α), preorderL ts = ts.flatMap preorder
  | [] => rfl
  | t :: ts => by simp [preorderL, preorderL_eq ts]

theorem postorderL_eq : ∀ ts : List (Tree α), postorderL ts = ts.flatMap postorder
  | [] => rfl
  | t :: ts => by simp [postorderL, postorderL_eq ts]

theorem countL_eq : ∀ ts : List (Tree α), countL ts = (ts.map count).sum
  | [] => rfl
  | t :: ts => by simp [countL, countL_eq ts]

theorem map_node (g : α → β) (a : α) (ts : List (Tree α)) : map g (.node a ts) = .node (g a) (ts.map (map g)) := by
  rw [map, mapL_eq]

theorem preorder_node (a : α) (ts : List (Tree α)) : preorder (.node a ts) = a :: ts.flatMap preorder := by
  rw [preorder, preorderL_eq]

theorem postorder_node (a : α) (ts : List (Tree α)) : postorder (.node a ts) = ts.flatMap postorder ++ [a] := by
  rw [postorder, postorderL_eq]

theorem preorder_map (g : α → β) : ∀ t : Tree α, (t.map g).preorder = t.preorder.map g := by
  refine ind fun a ts ih => ?_
  rw [map_node, preorder_node, preorder_node, List.map_cons, List.map_flatMap, List.flatMap_map]
  congr 1
  exact List.flatMap_congr ih

theorem postorder_map (g : α → β) : ∀ t : Tree α, (t.map g).postorder = t.postorder.map g := by
  refine ind fun a ts ih => ?_
  rw [map_node, postorder_node, postorder_node, List.map_append, List.map_flatMap, List.flatMap_map]
  congr 1
  exact List.flatMap_congr ih

theorem count_map (g : α → β) (t : Tree α) : (t.map g).count = t.count := by
  rw [← length_preorder, preorder_map, List.length_map, length_preorder]

theorem isTree_node {kids : Nat → List Nat} {x : Nat} {ts : List (Tree Nat)} :
    IsTree kids (.node x ts) ↔ kids x = ts.map root ∧ ∀ t ∈ ts, IsTree kids t := by
  rw [IsTree, isForest_iff]

end Tree

namespace Wood

/-- The tree of the IDs. -/
def sk (t : Tree (Nat × T)) : Tree Nat := t.map (·.1)

theorem root_sk (t : Tree (Nat × T)) : (sk t).root = idOf t := Tree.root_map _ _

theorem preorder_sk (t : Tree (Nat × T)) : (sk t).preorder = t.preorder.map (·.1) := Tree.preorder_map _ _

theorem sk_node (a : Nat × T) (ts : List (Tree (Nat × T))) : sk (.node a ts) = .node a.1 (ts.map sk) :=
  Tree.map_node _ _ _

theorem map_root_sk (ts : List (Tree (Nat × T))) : (ts.map sk).map Tree.root = ts.map idOf := by
  rw [List.map_map]; exact List.map_congr_left fun t _ => root_sk t

theorem editL_eq (g : Nat → List (Tree (Nat × T)) → List (Tree (Nat × T))) : ∀ ts, editL g ts = ts.map (edit g)
  | [] => rfl
  | t :: ts => by simp [editL, editL_eq g ts]

theorem edit_node (g : Nat → List (Tree (Nat × T)) → List (Tree (Nat × T))) (a : Nat × T)
    (ts : List (Tree (Nat × T))) : edit g (.node a ts) = .node a (g a.1 (ts.map (edit g))) := by
  rw [edit, editL_eq]

theorem idOf_edit (g : Nat → List (Tree (Nat × T)) → List (Tree (Nat × T))) (t : Tree (Nat × T)) :
    idOf (edit g t) = idOf t := by cases t; rfl

theorem map_idOf_edit (g : Nat → List (Tree (Nat × T)) → List (Tree (Nat × T))) (ts : List (Tree (Nat × T))) :
    (ts.map (edit g)).map idOf = ts.map idOf := by
  rw [List.map_map]; exact List.map_congr_left fun t _ => idOf_edit g t

theorem isTree_sk_node {kids : Nat → List Nat} {a : Nat × T} {ts : List (Tree (Nat × T))} :
    Tree.IsTree kids (sk (.node a ts)) ↔ kids a.1 = ts.map idOf ∧ ∀ t ∈ ts, Tree.IsTree kids (sk t) := by
  rw [sk_node, Tree.isTree_node, map_root_sk]
  simp

theorem mem_ids {w : List (Tree (Nat × T))} {x : Nat} : x ∈ ids w ↔ ∃ t ∈ w, x ∈ (sk t).preorder := by
  simp only [ids, Tree.preorderL_eq, List.mem_map, List.mem_flatMap, preorder_sk]
  constructor
  · rintro ⟨a, ⟨t, ht, ha⟩, rfl⟩; exact ⟨t, ht, a, ha, rfl⟩
  · rintro ⟨t, ht, a, ha, rfl⟩; exact ⟨a, ⟨t, ht, ha⟩, rfl⟩

/-- Editing the lists of subtrees turns trees of `kids` into trees of `kids'`. -/
theorem isTree_edit {kids kids' : Nat → List Nat}
    {g : Nat → List (Tree (Nat × T)) → List (Tree (Nat × T))} (Q : Nat → Prop)
    (h : ∀ (b : Nat) (l : List (Tree (Nat × T))), Q b → l.map idOf = kids b → (∀ t ∈ l, Tree.IsTree kids' (sk t)) →
      (g b l).map idOf = kids' b ∧ ∀ t ∈ g b l, Tree.IsTree kids' (sk t)) :
    ∀ t : Tree (Nat × T), (∀ y ∈ (sk t).preorder, Q y) → Tree.IsTree kids (sk t) → Tree.IsTree kids' (sk (edit g t)) := by
  refine Tree.ind fun a ts ih hQ ht => ?_
  rw [isTree_sk_node] at ht
  rw [edit_node, isTree_sk_node]
  rw [sk_node, Tree.preorder_node] at hQ
  have := h a.1 (ts.map (edit g)) (hQ _ (by simp)) (by rw [map_idOf_edit, ht.1]) (fun t hm => by
    obtain ⟨u, hu, rfl⟩ := List.mem_map.1 hm
    refine ih u hu (fun y hy => hQ y ?_) (ht.2 u hu)
    exact List.mem_cons_of_mem _ (List.mem_flatMap.2 ⟨sk u, List.mem_map_of_mem hu, hy⟩))
  exact ⟨this.1.symm, this.2⟩

/-- Editing keeps what holds for all labels, if each step does. -/
theorem all_edit {P : Nat × T → Prop} {g : Nat → List (Tree (Nat × T)) → List (Tree (Nat × T))}
    (h : ∀ (b : Nat) (l : List (Tree (Nat × T))), (∀ t ∈ l, ∀ p ∈ t.preorder, P p) → ∀ t ∈ g b l, ∀ p ∈ t.preorder, P p) :
    ∀ t : Tree (Nat × T), (∀ p ∈ t.preorder, P p) → ∀ p ∈ (edit g t).preorder, P p := by
  refine Tree.ind fun a ts ih ht => ?_
  rw [edit_node, Tree.preorder_node]
  rw [Tree.preorder_node] at ht
  intro p hp
  rcases List.mem_cons.1 hp with rfl | hp
  · exact ht _ (by simp)
  · obtain ⟨t, hm, hp⟩ := List.mem_flatMap.1 hp
    refine h a.1 _ (fun t hm => ?_) t hm p hp
    obtain ⟨u, hu, rfl⟩ := List.mem_map.1 hm
    refine ih u hu fun p hp => ht p ?_
    exact List.mem_cons_of_mem _ (List.mem_flatMap.2 ⟨u, hu, hp⟩)

/-- The trees `w` are the trees of the shape `s`. -/
structure Shaped (w : List (Tree (Nat × T))) (s : Shape) : Prop where
  tree : ∀ t ∈ w, Tree.IsTree s.kids (sk t)
  roots : ∀ x, x ∈ w.map idOf ↔ s.alive x = true ∧ s.parent x = none
  nodup : (w.map idOf).Nodup

/-- The labels of `w` are the data of `f`. -/
def Stored (w : List (Tree (Nat × T))) (f : Forest T) : Prop :=
  ∀ t ∈ w, ∀ p ∈ t.preorder, f.getData p.1 = some p.2

variable {w : List (Tree (Nat × T))} {s : Shape} {f : Forest T}

theorem Shaped.root_alive (h : Shaped w s) {t : Tree (Nat × T)} (ht : t ∈ w) :
    s.alive (sk t).root = true ∧ s.parent (sk t).root = none := by
  rw [root_sk]; exact (h.roots _).1 (List.mem_map_of_mem ht)

theorem Shaped.mem_ids (h : Shaped w s) (hv : s.Valid) (x : Nat) : x ∈ ids w ↔ s.alive x = true := by
  rw [Wood.mem_ids]
  constructor
  · rintro ⟨t, ht, hx⟩
    exact Tree.mem_alive hv (h.tree t ht) (h.root_alive ht).1 hx
  · intro hx
    have key : ∀ y, Rooted s.parent y → s.alive y = true → ∃ t ∈ w, y ∈ (sk t).preorder := by
      intro y hr
      induction hr with
      | root hp =>
        intro hy
        obtain ⟨t, ht, e⟩ := List.mem_map.1 ((h.roots _).2 ⟨hy, hp⟩)
        exact ⟨t, ht, by rw [← e, ← root_sk]; exact Tree.root_mem_preorder _⟩
      | step hp _ ih =>
        intro _
        obtain ⟨t, ht, hm⟩ := ih (hv.parent_alive _ _ hp).2
        exact ⟨t, ht, Tree.kid_mem_preorder _ (h.tree t ht) _ _ hm ((hv.mem_kids _ _).2 hp)⟩
    exact key x (hv.rooted x) hx

/-- Different trees have no node in common. -/
theorem Shaped.disjoint (h : Shaped w s) (hv : s.Valid) {t u : Tree (Nat × T)} (ht : t ∈ w) (hu : u ∈ w) {x : Nat}
    (h1 : x ∈ (sk t).preorder) (h2 : x ∈ (sk u).preorder) : idOf t = idOf u := by
  rw [Tree.mem_preorder_iff hv (h.tree _ ht)] at h1
  rw [Tree.mem_preorder_iff hv (h.tree _ hu)] at h2
  have e1 := (h.root_alive ht).2
  have e2 := (h.root_alive hu).2
  rw [← root_sk, ← root_sk]
  generalize (sk t).root = a at *
  generalize (sk u).root = b at *
  rcases AncOrSelf.linear h1 h2 with h3 | h3
  · cases h3 with
    | refl => rfl
    | step hp _ => rw [e2] at hp; cases hp
  · cases h3 with
    | refl => rfl
    | step hp _ => rw [e1] at hp; cases hp

/-! ### Looking things up -/

theorem findL_eq (x : Nat) : ∀ ts : List (Tree (Nat × T)), findL x ts = ts.findSome? (find x)
  | [] => rfl
  | t :: ts => by simp only [findL, List.findSome?_cons, findL_eq x ts]; cases find x t <;> rfl

theorem parentL_eq (x : Nat) : ∀ ts : List (Tree (Nat × T)), parentL x ts = ts.findSome? (parent x)
  | [] => rfl
  | t :: ts => by simp only [parentL, List.findSome?_cons, parentL_eq x ts]; cases parent x t <;> rfl

theorem find_some (x : Nat) : ∀ t u : Tree (Nat × T), find x t = some u →
    idOf u = x ∧ (∀ p ∈ u.preorder, p ∈ t.preorder) ∧
      ∀ kids, Tree.IsTree kids (sk t) → Tree.IsTree kids (sk u) := by
  intro t u
  revert t
  refine Tree.ind fun a ts ih h => ?_
  rw [find] at h
  split at h
  · rename_i e
    cases h
    exact ⟨e, fun _ hp => hp, fun _ h => h⟩
  · rw [findL_eq] at h
    obtain ⟨t, ht, h⟩ := List.exists_of_findSome?_eq_some h
    obtain ⟨h1, h2, h3⟩ := ih t ht h
    refine ⟨h1, fun p hp => ?_, fun kids hk => h3 kids ?_⟩
    · rw [Tree.preorder_node]
      exact List.mem_cons_of_mem _ (List.mem_flatMap.2 ⟨t, ht, h2 p hp⟩)
    · rw [isTree_sk_node] at hk; exact hk.2 t ht

theorem find_none (x : Nat) : ∀ t : Tree (Nat × T), find x t = none → x ∉ (sk t).preorder := by
  refine Tree.ind fun a ts ih h => ?_
  rw [find] at h
  split at h
  · cases h
  · rename_i e
    rw [findL_eq, List.findSome?_eq_none_iff] at h
    rw [sk_node, Tree.preorder_node]
    simp only [List.mem_cons, List.mem_flatMap, List.mem_map, not_or]
    refine ⟨fun h => e h.symm, ?_⟩
    rintro ⟨_, ⟨t, ht, rfl⟩, hx⟩
    exact ih t ht (h t ht) hx

theorem findL_none {x : Nat} {w : List (Tree (Nat × T))} (h : findL x w = none) : x ∉ ids w := by
  rw [findL_eq, List.findSome?_eq_none_iff] at h
  rw [Wood.mem_ids]
  rintro ⟨t, ht, hx⟩
  exact find_none x t (h t ht) hx

theorem findL_some {x : Nat} {u : Tree (Nat × T)} (h : findL x w = some u) :
    idOf u = x ∧ ∃ t ∈ w, (∀ p ∈ u.preorder, p ∈ t.preorder) ∧
      ∀ kids, Tree.IsTree kids (sk t) → Tree.IsTree kids (sk u) := by
  rw [findL_eq] at h
  obtain ⟨t, ht, h⟩ := List.exists_of_findSome?_eq_some h
  exact ⟨(find_some x t u h).1, t, ht, (find_some x t u h).2⟩

theorem Shaped.find (h : Shaped w s) (hv : s.Valid) (x : Nat) :
    (s.alive x = false ∧ findL x w = none) ∨
    (s.alive x = true ∧ ∃ u, findL x w = some u ∧ idOf u = x ∧ Tree.IsTree s.kids (sk u)) := by
  cases hf : findL x w with
  | none =>
    refine .inl ⟨?_, rfl⟩
    have := findL_none hf
    rw [h.mem_ids hv] at this
    simpa using this
  | some u =>
    obtain ⟨h1, t, ht, h2, h3⟩ := findL_some hf
    refine .inr ⟨(h.mem_ids hv x).1 (Wood.mem_ids.2 ⟨t, ht, ?_⟩), u, rfl, h1, h3 _ (h.tree t ht)⟩
    rw [preorder_sk, List.mem_map]
    refine ⟨u.root, h2 _ (Tree.root_mem_preorder u), h1⟩

theorem Stored.find (h : Stored w f) {x : Nat} {u : Tree (Nat × T)} (hf : findL x w = some u) :
    ∀ p ∈ u.preorder, f.getData p.1 = some p.2 := by
  obtain ⟨_, t, ht, h2, _⟩ := findL_some hf
  exact fun p hp => h t ht p (h2 p hp)

theorem parent_some (x p : Nat) {kids : Nat → List Nat} : ∀ t : Tree (Nat × T), parent x t = some p →
    Tree.IsTree kids (sk t) → x ∈ kids p := by
  refine Tree.ind fun a ts ih h ht => ?_
  rw [isTree_sk_node] at ht
  rw [parent] at h
  split at h
  · rename_i e
    cases h
    rw [ht.1]; exact e
  · rw [parentL_eq] at h
    obtain ⟨t, hm, h⟩ := List.exists_of_findSome?_eq_some h
    exact ih t hm h (ht.2 t hm)

theorem parent_none (x : Nat) {kids : Nat → List Nat} : ∀ t : Tree (Nat × T), parent x t = none →
    Tree.IsTree kids (sk t) → ∀ y ∈ (sk t).preorder, x ∉ kids y := by
  refine Tree.ind fun a ts ih h ht y hy => ?_
  rw [isTree_sk_node] at ht
  rw [parent] at h
  split at h
  · cases h
  · rename_i e
    rw [parentL_eq, List.findSome?_eq_none_iff] at h
    rw [sk_node, Tree.preorder_node] at hy
    simp only [List.mem_cons, List.mem_flatMap, List.mem_map] at hy
    rcases hy with rfl | ⟨_, ⟨t, hm, rfl⟩, hy⟩
    · rw [ht.1]; exact e
    · exact ih t hm (h t hm) (ht.2 t hm) y hy

theorem Shaped.parent (h : Shaped w s) (hv : s.Valid) (x : Nat) : parentL x w = s.parent x := by
  cases hp : parentL x w with
  | some p =>
    rw [parentL_eq] at hp
    obtain ⟨t, hm, hp⟩ := List.exists_of_findSome?_eq_some hp
    exact ((hv.mem_kids _ _).1 (parent_some x p t hp (h.tree t hm))).symm
  | none =>
    rw [parentL_eq, List.findSome?_eq_none_iff] at hp
    cases hq : s.parent x with
    | none => rfl
    | some q =>
      exfalso
      obtain ⟨t, ht, hm⟩ := Wood.mem_ids.1 ((h.mem_ids hv q).2 (hv.parent_alive _ _ hq).2)
      exact parent_none x t (hp t ht) (h.tree t ht) q hm ((hv.mem_kids _ _).2 hq)

end Wood

/-- The naive forest `r` stands for the forest `f` of shape `s`. -/
structure Plain.Abs (r : Plain T) (f : Forest T) (s : Shape) : Prop where
  models : Models f s
  size : s.size = r.issued
  shaped : Wood.Shaped r.trees s
  stored : Wood.Stored r.trees f

namespace Plain
open Wood
variable {r : Plain T} {f : Forest T} {s : Shape}

theorem Abs.alive (h : Abs r f s) (x : Nat) : r.alive x = s.alive x := by
  rw [Bool.eq_iff_iff, Plain.alive, decide_eq_true_iff]
  exact h.shaped.mem_ids h.models.valid x

theorem Abs.find (h : Abs r f s) (x : Nat) :
    (s.alive x = false ∧ findL x r.trees = none) ∨
    (s.alive x = true ∧ ∃ u, findL x r.trees = some u ∧ idOf u = x ∧ Tree.IsTree s.kids (sk u)) :=
  h.shaped.find h.models.valid x

theorem Abs.kids (h : Abs r f s) (x : Nat) : r.kids x = s.kids x := by
  unfold Plain.kids
  rcases h.find x with ⟨hx, e⟩ | ⟨hx, u, e, hu, ht⟩
  · rw [e]
    exact (h.models.valid.dead_kids hx).symm
  · rw [e]
    obtain ⟨a, ts⟩ := u
    rw [isTree_sk_node] at ht
    rw [← hu]
    exact ht.1.symm

theorem Abs.parent (h : Abs r f s) (x : Nat) : r.parent x = s.parent x := h.shaped.parent h.models.valid x

theorem Abs.sibs (h : Abs r f s) (x : Nat) : r.sibs x = s.sibs x := by
  unfold Plain.sibs Shape.sibs
  rw [h.parent]
  cases s.parent x with
  | none => rfl
  | some p => exact h.kids p

theorem Abs.placeParent (h : Abs r f s) (pl : Place) : r.placeParent pl = s.placeParent pl := by
  cases pl <;> simp [Plain.placeParent, Shape.placeParent, h.parent]

theorem Abs.there (h : Abs r f s) (x : Nat) (pl : Place) : r.there x pl = true ↔ s.At x pl := by
  cases pl <;>
    simp [Plain.there, Plain.link, Shape.At, Shape.first, Shape.last, Shape.prev, Shape.next, h.kids, h.sibs]

end Plain
end Treena
