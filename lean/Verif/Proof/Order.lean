import Verif.Proof.Dft
/-! Relative order of the events of a depth-first traversal. -/

namespace Treena
namespace Tree

@[simp] theorem closes_nil {α : Type} : closes ([] : List (Ev α)) = [] := rfl
@[simp] theorem closes_append {α : Type} (L M : List (Ev α)) : closes (L ++ M) = closes L ++ closes M := by
  simp [closes]
@[simp] theorem closes_opn {α : Type} (a : α) (L : List (Ev α)) : closes (.opn a :: L) = closes L := by
  simp [closes]
@[simp] theorem closes_cls {α : Type} (a : α) (L : List (Ev α)) : closes (.cls a :: L) = a :: closes L := by
  simp [closes]
theorem mem_closes {α : Type} {a : α} {L : List (Ev α)} : a ∈ closes L ↔ .cls a ∈ L := by
  unfold closes
  rw [List.mem_filterMap]
  constructor
  · rintro ⟨e, he, h⟩
    cases e with
    | opn b => simp at h
    | cls b => simp at h; subst h; exact he
  · intro h; exact ⟨_, h, rfl⟩

mutual
theorem closes_events {α : Type} : ∀ t : Tree α, closes t.events = t.postorder
  | .node x ts => by simp [events, postorder, closes_eventsL ts]
theorem closes_eventsL {α : Type} : ∀ ts : List (Tree α), closes (eventsL ts) = postorderL ts
  | [] => rfl
  | t :: ts => by simp [eventsL, postorderL, closes_events t, closes_eventsL ts]
end

mutual
theorem opens_events {α : Type} : ∀ t : Tree α, opens t.events = t.preorder
  | .node x ts => by
    have := opens_eventsL ts
    unfold opens at this ⊢
    simp [events, preorder, this]
theorem opens_eventsL {α : Type} : ∀ ts : List (Tree α), opens (eventsL ts) = preorderL ts
  | [] => rfl
  | t :: ts => by
    have h1 := opens_events t
    have h2 := opens_eventsL ts
    unfold opens at h1 h2 ⊢
    simp [eventsL, preorderL, h1, h2]
end

theorem mem_postorder {α : Type} {t : Tree α} {y : α} : y ∈ t.postorder ↔ y ∈ t.preorder := by
  rw [← closes_events, mem_closes, (mem_events_iff t y).2]

theorem events_sublist_eventsL {α : Type} {t : Tree α} {ts : List (Tree α)} (h : t ∈ ts) :
    t.events.Sublist (eventsL ts) := by
  induction ts with
  | nil => simp at h
  | cons u us ih =>
    rw [eventsL]
    rcases List.mem_cons.1 h with rfl | h
    · exact List.sublist_append_left _ _
    · exact (ih h).trans (List.sublist_append_right _ _)

theorem sub_events_node {α : Type} {x : α} {ts : List (Tree α)} {L : List (Ev α)}
    (h : L.Sublist (eventsL ts)) : L.Sublist (Tree.node x ts).events := by
  rw [events]
  exact (h.trans (List.sublist_append_left _ _)).trans (List.sublist_cons_self _ _)

theorem events_last {α : Type} (t : Tree α) : ∃ L, t.events = L ++ [.cls t.root] := by
  cases t with | node x ts => exact ⟨.opn x :: eventsL ts, by simp [events, root]⟩

theorem cls_root_mem {α : Type} (t : Tree α) : Ev.cls t.root ∈ t.events :=
  (mem_events_iff t t.root).2.2 (root_mem_preorder t)

/-- A child is opened and closed between the opening and the closing of its parent. -/
theorem kid_order {kids : Nat → List Nat} : ∀ (t : Tree Nat), IsTree kids t → ∀ y c,
    y ∈ t.preorder → c ∈ kids y →
      [Ev.opn y, .cls c].Sublist t.events ∧ [Ev.cls c, .cls y].Sublist t.events
  | .node x ts, ⟨h1, h2⟩, y, c, hy, hc => by
    simp only [preorder, List.mem_cons] at hy
    rcases hy with rfl | hy
    · rw [h1] at hc
      obtain ⟨u, hu, rfl⟩ := List.mem_map.1 hc
      have hm : Ev.cls u.root ∈ eventsL ts := (events_sublist_eventsL hu).subset (cls_root_mem u)
      rw [events]
      constructor
      · rw [List.cons_sublist_cons]
        exact (List.singleton_sublist.2 hm).trans (List.sublist_append_left _ _)
      · refine List.Sublist.trans ?_ (List.sublist_cons_self _ _)
        exact List.Sublist.append (List.singleton_sublist.2 hm) (List.Sublist.refl [Ev.cls y])
    · rw [mem_preorderL] at hy
      obtain ⟨u, hu, hyu⟩ := hy
      have := kid_order u (isForest_iff.1 h2 u hu) y c hyu hc
      exact ⟨sub_events_node (this.1.trans (events_sublist_eventsL hu)),
        sub_events_node (this.2.trans (events_sublist_eventsL hu))⟩
termination_by t => sizeOf t
decreasing_by simp_wf; have := List.sizeOf_lt_of_mem hu; omega

theorem eventsL_append {α : Type} (ts us : List (Tree α)) :
    eventsL (ts ++ us) = eventsL ts ++ eventsL us := by
  induction ts with
  | nil => rfl
  | cons t ts ih => simp [eventsL, ih]

/-- Siblings are closed in order. -/
theorem sib_order {kids : Nat → List Nat} : ∀ (t : Tree Nat), IsTree kids t → ∀ p a z A B,
    p ∈ t.preorder → kids p = A ++ a :: B → z ∈ B → [Ev.cls a, .cls z].Sublist t.events
  | .node x ts, ⟨h1, h2⟩, p, a, z, A, B, hp, hk, hz => by
    simp only [preorder, List.mem_cons] at hp
    rcases hp with rfl | hp
    · rw [h1] at hk
      obtain ⟨us, vs, rfl, hA, hB⟩ := List.map_eq_append_iff.1 hk
      cases vs with
      | nil => simp at hB
      | cons v vs =>
        simp only [List.map_cons, List.cons.injEq] at hB
        obtain ⟨rfl, rfl⟩ := hB
        obtain ⟨w, hw, rfl⟩ := List.mem_map.1 hz
        apply sub_events_node
        rw [eventsL_append]
        refine List.Sublist.trans ?_ (List.sublist_append_right _ _)
        rw [eventsL]
        exact List.Sublist.append (List.singleton_sublist.2 (cls_root_mem v))
          (List.singleton_sublist.2 ((events_sublist_eventsL hw).subset (cls_root_mem w)))
    · rw [mem_preorderL] at hp
      obtain ⟨u, hu, hpu⟩ := hp
      exact sub_events_node ((sib_order u (isForest_iff.1 h2 u hu) p a z A B hpu hk hz).trans
        (events_sublist_eventsL hu))
termination_by t => sizeOf t
decreasing_by simp_wf; have := List.sizeOf_lt_of_mem hu; omega

theorem pair_right {α : Type} {done L : List α} {u v : α} (hn : (done ++ u :: L).Nodup)
    (h : [u, v].Sublist (done ++ u :: L)) : v ∈ L := by
  have hu : u ∉ done := fun hm => (List.nodup_append.1 hn).2.2 u hm u (by simp) rfl
  have hu' : u ∉ L := (List.nodup_cons.1 (List.nodup_append.1 hn).2.1).1
  rw [List.sublist_append_iff] at h
  obtain ⟨l1, l2, e, h1, h2⟩ := h
  cases l1 with
  | cons a l1 =>
    simp at e
    exact absurd (h1.subset (by simp [e.1])) hu
  | nil =>
    simp at e; subst e
    cases h2 with
    | cons _ h => exact absurd (h.subset (by simp)) hu'
    | cons_cons _ h => exact h.subset (by simp)

theorem pair_left {α : Type} {done L : List α} {u v : α} (hn : (done ++ v :: L).Nodup) (huv : u ≠ v)
    (h : [u, v].Sublist (done ++ v :: L)) : u ∈ done := by
  have hv' : v ∉ L := (List.nodup_cons.1 (List.nodup_append.1 hn).2.1).1
  have hmem : u ∈ done ++ v :: L := h.subset (by simp)
  rcases List.mem_append.1 hmem with h1 | h1
  · exact h1
  · rcases List.mem_cons.1 h1 with h1 | h1
    · exact absurd h1 huv
    · obtain ⟨A, B, rfl⟩ := List.append_of_mem h1
      have hn' : ((done ++ v :: A) ++ u :: B).Nodup := by simpa using hn
      have h' : [u, v].Sublist ((done ++ v :: A) ++ u :: B) := by simpa using h
      have := pair_right hn' h'
      exact absurd (by simp [this]) hv'

end Tree

namespace Tree
mutual
theorem postorder_perm {α : Type} : ∀ t : Tree α, t.postorder.Perm t.preorder
  | .node a ts => by
    simp only [postorder, preorder]
    exact (List.perm_append_singleton a _).trans ((postorderL_perm ts).cons a)
theorem postorderL_perm {α : Type} : ∀ ts : List (Tree α), (postorderL ts).Perm (preorderL ts)
  | [] => .refl _
  | t :: ts => by
    simp only [postorderL, preorderL]
    exact (postorder_perm t).append (postorderL_perm ts)
end
end Tree

end Treena
