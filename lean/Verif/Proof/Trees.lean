import Verif.Proof.Paths
import Verif.Spec.Tree
/-! Rose trees of valid shapes. -/
namespace Treena
open Shape
namespace Tree

/-! ### Existence and uniqueness -/

theorem isForest_iff {kids : Nat → List Nat} {ts : List (Tree Nat)} :
    IsForest kids ts ↔ ∀ t ∈ ts, IsTree kids t := by
  induction ts with
  | nil => simp [IsForest]
  | cons t ts ih => simp [IsForest, ih]

/-- Unfold the child lists to a given depth. -/
def unfold (kids : Nat → List Nat) : Nat → Nat → Tree Nat
  | 0, x => .node x []
  | n + 1, x => .node x ((kids x).map (unfold kids n))

theorem root_unfold (kids : Nat → List Nat) (n x : Nat) : (unfold kids n x).root = x := by
  cases n <;> rfl

theorem isTree_unfold {s : Shape} (hv : s.Valid) {n x : Nat} {l : List Nat}
    (hp : UpPath s.parent x l) (hx : s.alive x = true) (hn : s.size < l.length + n) :
    IsTree s.kids (unfold s.kids n x) := by
  induction n generalizing x l with
  | zero => have := hv.path_length hp hx; omega
  | succ n ih =>
    refine ⟨?_, ?_⟩
    · rw [List.map_map]
      have : (root ∘ unfold s.kids n) = id := by funext y; exact root_unfold _ _ _
      rw [this, List.map_id]
    · rw [isForest_iff]
      intro t ht
      obtain ⟨c, hc, rfl⟩ := List.mem_map.1 ht
      exact ih (.step (hv.kid_parent hc) hp) (hv.kid_alive hc) (by simp; omega)

/-- Every live node of a valid shape is the root of a finite tree. -/
theorem exists_tree {s : Shape} (hv : s.Valid) {x : Nat} (hx : s.alive x = true) :
    ∃ t, IsTree s.kids t ∧ t.root = x := by
  obtain ⟨l, hl⟩ := UpPath.exists_of_rooted (hv.rooted x)
  exact ⟨unfold s.kids (s.size + 1) x, isTree_unfold hv hl hx (by omega), root_unfold _ _ _⟩

mutual
theorem isTree_unique {kids : Nat → List Nat} :
    ∀ (t t' : Tree Nat), IsTree kids t → IsTree kids t' → t.root = t'.root → t = t'
  | .node x ts, .node x' ts', ⟨h1, h2⟩, ⟨h1', h2'⟩, hr => by
    simp only [root] at hr; subst hr
    rw [isForest_unique ts ts' h2 h2' (by rw [← h1, ← h1'])]
theorem isForest_unique {kids : Nat → List Nat} :
    ∀ (ts ts' : List (Tree Nat)), IsForest kids ts → IsForest kids ts' →
      ts.map root = ts'.map root → ts = ts'
  | [], [], _, _, _ => rfl
  | [], _ :: _, _, _, h => by simp at h
  | _ :: _, [], _, _, h => by simp at h
  | t :: ts, t' :: ts', ⟨h1, h2⟩, ⟨h1', h2'⟩, h => by
    simp at h
    rw [isTree_unique t t' h1 h1' h.1, isForest_unique ts ts' h2 h2' h.2]
end

/-! ### Membership -/

mutual
theorem mem_preorder_anc {s : Shape} (hv : s.Valid) :
    ∀ (t : Tree Nat), IsTree s.kids t → ∀ y, y ∈ t.preorder → AncOrSelf s.parent t.root y
  | .node x ts, ⟨h1, h2⟩, y, hy => by
    simp only [preorder, List.mem_cons] at hy
    rcases hy with e | hy
    · subst e; exact .refl
    · obtain ⟨t, ht, ha⟩ := mem_preorderL_anc hv ts h2 y hy
      have hk : t.root ∈ s.kids x := by rw [h1]; exact List.mem_map_of_mem ht
      exact (AncOrSelf.parent (hv.kid_parent hk)).trans ha
theorem mem_preorderL_anc {s : Shape} (hv : s.Valid) :
    ∀ (ts : List (Tree Nat)), IsForest s.kids ts → ∀ y, y ∈ preorderL ts →
      ∃ t ∈ ts, AncOrSelf s.parent t.root y
  | [], _, y, hy => by simp [preorderL] at hy
  | t :: ts, ⟨h1, h2⟩, y, hy => by
    simp only [preorderL, List.mem_append] at hy
    rcases hy with hy | hy
    · exact ⟨t, by simp, mem_preorder_anc hv t h1 y hy⟩
    · obtain ⟨t', ht', ha⟩ := mem_preorderL_anc hv ts h2 y hy
      exact ⟨t', by simp [ht'], ha⟩
end

theorem mem_preorderL {α : Type} {ts : List (Tree α)} {y : α} :
    y ∈ preorderL ts ↔ ∃ t ∈ ts, y ∈ t.preorder := by
  induction ts with
  | nil => simp [preorderL]
  | cons t ts ih => simp [preorderL, ih]

theorem root_mem_preorder {α : Type} (t : Tree α) : t.root ∈ t.preorder := by
  cases t; simp [preorder, root]

/-- The children of a node of the tree are nodes of the tree. -/
theorem kid_mem_preorder {kids : Nat → List Nat} :
    ∀ (t : Tree Nat), IsTree kids t → ∀ y c, y ∈ t.preorder → c ∈ kids y → c ∈ t.preorder
  | .node x ts, ⟨h1, h2⟩, y, c, hy, hc => by
    simp only [preorder, List.mem_cons] at hy ⊢
    right
    rw [mem_preorderL] at *
    rcases hy with e | ⟨t, ht, hyt⟩
    · subst e
      rw [h1] at hc
      obtain ⟨t, ht, rfl⟩ := List.mem_map.1 hc
      exact ⟨t, ht, root_mem_preorder t⟩
    · exact ⟨t, ht, kid_mem_preorder t (isForest_iff.1 h2 t ht) y c hyt hc⟩

/-- The nodes of the tree are exactly the descendants of its root. -/
theorem mem_preorder_iff {s : Shape} (hv : s.Valid) {t : Tree Nat} (ht : IsTree s.kids t) (y : Nat) :
    y ∈ t.preorder ↔ AncOrSelf s.parent t.root y := by
  constructor
  · exact mem_preorder_anc hv t ht y
  · intro h
    induction h with
    | refl => exact root_mem_preorder t
    | step hp _ ih => exact kid_mem_preorder t ht _ _ ih ((hv.mem_kids _ _).2 hp)

mutual
theorem mem_events_iff {α : Type} : ∀ (t : Tree α) (y : α),
    (Ev.opn y ∈ t.events ↔ y ∈ t.preorder) ∧ (Ev.cls y ∈ t.events ↔ y ∈ t.preorder)
  | .node x ts, y => by
    have ih := mem_eventsL_iff ts y
    simp [events, preorder, ih.1, ih.2, or_comm]
theorem mem_eventsL_iff {α : Type} : ∀ (ts : List (Tree α)) (y : α),
    (Ev.opn y ∈ eventsL ts ↔ y ∈ preorderL ts) ∧ (Ev.cls y ∈ eventsL ts ↔ y ∈ preorderL ts)
  | [], y => by simp [eventsL, preorderL]
  | t :: ts, y => by
    have h1 := mem_events_iff t y
    have h2 := mem_eventsL_iff ts y
    simp [eventsL, preorderL, h1.1, h1.2, h2.1, h2.2]
end

theorem node_mem_preorder {α : Type} {t : Tree α} {e : Ev α} (h : e ∈ t.events) :
    e.node ∈ t.preorder := by
  cases e with
  | opn y => exact (mem_events_iff t y).1.1 h
  | cls y => exact (mem_events_iff t y).2.1 h

theorem node_mem_preorderL {α : Type} {ts : List (Tree α)} {e : Ev α} (h : e ∈ eventsL ts) :
    e.node ∈ preorderL ts := by
  cases e with
  | opn y => exact (mem_eventsL_iff ts y).1.1 h
  | cls y => exact (mem_eventsL_iff ts y).2.1 h

/-! ### No repetitions -/

theorem anc_kid_ne {s : Shape} (hv : s.Valid) {x c y : Nat} (hc : c ∈ s.kids x)
    (h : AncOrSelf s.parent c y) : y ≠ x := by
  intro e; subst e
  exact (hv.rooted c).acyclic (hv.kid_parent hc) h

/-- Subtrees of different siblings are disjoint. -/
theorem sib_disjoint {s : Shape} (hv : s.Valid) {x c c' y : Nat} (hc : c ∈ s.kids x)
    (hc' : c' ∈ s.kids x) (h : AncOrSelf s.parent c y) (h' : AncOrSelf s.parent c' y) : c = c' := by
  have key : ∀ a b, a ∈ s.kids x → b ∈ s.kids x → AncOrSelf s.parent a b → a = b := by
    intro a b ha hb hab
    cases hab with
    | refl => rfl
    | step hp ha' =>
      rw [hv.kid_parent hb] at hp
      cases hp
      exact absurd ha' ((hv.rooted a).acyclic (hv.kid_parent ha))
  rcases h.linear h' with hh | hh
  · exact key _ _ hc hc' hh
  · exact (key _ _ hc' hc hh).symm

/-- Concatenations of lists built from the subtrees of distinct siblings have no repetitions. -/
theorem preorderL_nodup_aux {s : Shape} (hv : s.Valid) {x : Nat} {ts : List (Tree Nat)}
    (hsub : ∀ t ∈ ts, t.root ∈ s.kids x) (hnd : (ts.map root).Nodup) (hf : IsForest s.kids ts)
    (ih : ∀ t ∈ ts, t.preorder.Nodup) : (preorderL ts).Nodup := by
  induction ts with
  | nil => simp [preorderL]
  | cons t ts ih' =>
    simp at hnd
    simp only [preorderL]
    rw [List.nodup_append]
    refine ⟨ih t (by simp), ih' (fun t ht => hsub t (by simp [ht])) hnd.2 hf.2 (fun t ht => ih t (by simp [ht])), ?_⟩
    intro a ha b hb e; subst e
    obtain ⟨t', ht', ha'⟩ := mem_preorderL_anc hv ts hf.2 a hb
    have h1 := mem_preorder_anc hv t hf.1 a ha
    have := sib_disjoint hv (hsub t (by simp)) (hsub t' (by simp [ht'])) h1 ha'
    exact hnd.1 t' ht' this.symm

theorem preorder_nodup {s : Shape} (hv : s.Valid) :
    ∀ (t : Tree Nat), IsTree s.kids t → t.preorder.Nodup
  | .node x ts, ⟨h1, h2⟩ => by
    simp only [preorder, List.nodup_cons]
    have hsub : ∀ t ∈ ts, t.root ∈ s.kids x := fun t ht => by rw [h1]; exact List.mem_map_of_mem ht
    refine ⟨fun hm => ?_, ?_⟩
    · obtain ⟨t, ht, ha⟩ := mem_preorderL_anc hv ts h2 x hm
      exact anc_kid_ne hv (hsub t ht) ha rfl
    · refine preorderL_nodup_aux hv hsub (by rw [← h1]; exact hv.kids_nodup x) h2 ?_
      intro t ht
      exact preorder_nodup hv t (isForest_iff.1 h2 t ht)

mutual
theorem events_nodup {α : Type} : ∀ (t : Tree α), t.preorder.Nodup → t.events.Nodup
  | .node x ts, h => by
    simp only [preorder, List.nodup_cons] at h
    simp only [events, List.nodup_cons, List.nodup_append, List.mem_append, List.mem_singleton]
    refine ⟨?_, eventsL_nodup ts h.2, by simp, ?_⟩
    · rintro (hm | hm)
      · exact h.1 ((mem_eventsL_iff ts x).1.1 hm)
      · cases hm
    · intro a ha b hb e
      subst hb; subst e
      exact h.1 ((mem_eventsL_iff ts x).2.1 ha)
theorem eventsL_nodup {α : Type} : ∀ (ts : List (Tree α)), (preorderL ts).Nodup → (eventsL ts).Nodup
  | [], _ => by simp [eventsL]
  | t :: ts, h => by
    simp only [preorderL, List.nodup_append] at h
    simp only [eventsL, List.nodup_append]
    refine ⟨events_nodup t h.1, eventsL_nodup ts h.2.1, ?_⟩
    intro a ha b hb e; subst e
    exact h.2.2 _ (node_mem_preorder ha) _ (node_mem_preorderL hb) rfl
end

/-! ### Sizes -/

mutual
theorem length_preorder {α : Type} : ∀ (t : Tree α), t.preorder.length = t.count
  | .node x ts => by simp [preorder, count, length_preorderL ts]
theorem length_preorderL {α : Type} : ∀ (ts : List (Tree α)), (preorderL ts).length = countL ts
  | [] => rfl
  | t :: ts => by simp [preorderL, countL, length_preorder t, length_preorderL ts]
end

mutual
theorem length_events {α : Type} : ∀ (t : Tree α), t.events.length = 2 * t.count
  | .node x ts => by simp [events, count, length_eventsL ts]; omega
theorem length_eventsL {α : Type} : ∀ (ts : List (Tree α)), (eventsL ts).length = 2 * countL ts
  | [] => rfl
  | t :: ts => by simp [eventsL, countL, length_events t, length_eventsL ts]; omega
end

theorem count_le_size {s : Shape} (hv : s.Valid) {t : Tree Nat} (ht : IsTree s.kids t)
    (hx : s.alive t.root = true) : t.count ≤ s.size := by
  rw [← length_preorder]
  refine nodup_length_le (preorder_nodup hv t ht) (fun y hy => hv.alive_lt y ?_)
  exact (mem_preorder_anc hv t ht y hy).alive_down hv hx

theorem mem_alive {s : Shape} (hv : s.Valid) {t : Tree Nat} (ht : IsTree s.kids t)
    (hx : s.alive t.root = true) {y : Nat} (hy : y ∈ t.preorder) : s.alive y = true :=
  (mem_preorder_anc hv t ht y hy).alive_down hv hx

end Tree
end Treena
