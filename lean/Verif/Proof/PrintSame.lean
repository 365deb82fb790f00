import Verif.Proof.Render
/-! Two trees with the same shape and the same displayed data are printed alike. -/
set_option autoImplicit false

namespace Treena
namespace Tree
mutual
theorem events_map {α β : Type} (h : α → β) : ∀ t : Tree α, (t.map h).events = t.events.map (Ev.map h)
  | .node a ts => by simp [map, events, eventsL_map h ts, Ev.map]
theorem eventsL_map {α β : Type} (h : α → β) : ∀ ts : List (Tree α), eventsL (mapL h ts) = (eventsL ts).map (Ev.map h)
  | [] => by simp [mapL, eventsL]
  | t :: ts => by simp [mapL, eventsL, events_map h t, eventsL_map h ts]
end

theorem root_map {α β : Type} (h : α → β) (t : Tree α) : (t.map h).root = h t.root := by cases t; rfl

theorem mapL_eq {α β : Type} (h : α → β) : ∀ ts : List (Tree α), mapL h ts = ts.map (map h)
  | [] => rfl
  | t :: ts => by simp [mapL, mapL_eq h ts]

theorem mapL_root {α β : Type} (h : α → β) (ts : List (Tree α)) : (mapL h ts).map root = (ts.map root).map h := by
  rw [mapL_eq, List.map_map, List.map_map]
  exact List.map_congr_left fun t _ => root_map h t

theorem opn_mem_events {α : Type} (t : Tree α) (y : α) : Ev.opn y ∈ t.events ↔ y ∈ t.preorder := by
  rw [← opens_events t, opens, List.mem_filterMap]
  constructor
  · intro h; exact ⟨_, h, rfl⟩
  · rintro ⟨e, he, h⟩
    cases e <;> simp at h
    subst h; exact he
end Tree

namespace DebugPrint
open Shape
variable {S T U : Type} {put : S → Text → Except S S} {disp : T → Fmt} {disp' : U → Fmt}
  {f : Forest T} {g : Forest U} {s s' : Shape} {β : Type}

theorem writeData_congr {y y' : Nat} (h : (f.getData y).map disp = (g.getData y').map disp') :
    writeData put disp f y = writeData put disp' g y' := by
  unfold writeData
  cases h1 : f.getData y with
  | none =>
    cases h2 : g.getData y' with
    | none => rfl
    | some d' => rw [h1, h2] at h; cases h
  | some d =>
    cases h2 : g.getData y' with
    | none => rw [h1, h2] at h; cases h
    | some d' =>
      rw [h1, h2] at h
      simp only [Option.map_some, Option.some.injEq] at h
      rw [expect_some, expect_some, ofR_bind, ofR_bind, h]

theorem flat_congr {lastOf lastOf' : Nat → Bool} {ρ : Nat → Nat} : ∀ (L : List (Ev Nat)) (k k' : List (Ev Nat) → P S β),
    (∀ y, Ev.opn y ∈ L → lastOf y = lastOf' (ρ y) ∧ (f.getData y).map disp = (g.getData (ρ y)).map disp') →
    (∀ n, k (L.drop n) = k' ((L.map (Ev.map ρ)).drop n)) →
    (flat put disp f lastOf L >>= k) = (flat put disp' g lastOf' (L.map (Ev.map ρ)) >>= k')
  | [], k, k', _, hk => by
    simp only [List.map_nil, flat, pure_bind]; exact hk 0
  | .cls y :: L, k, k', h, hk => by
    simp only [List.map_cons, Ev.map, flat, bind_assoc]
    refine bind_congr rfl fun ok => ?_
    cases ok with
    | false => simp only [Bool.false_eq_true, if_false, pure_bind]; exact hk 1
    | true =>
      simp only [if_true]
      exact flat_congr L k k' (fun y hy => h y (by simp [hy])) fun n => hk (n + 1)
  | .opn y :: L, k, k', h, hk => by
    simp only [List.map_cons, Ev.map, flat, bind_assoc]
    rw [(h y (by simp)).1]
    refine bind_congr rfl fun _ => ?_
    refine bind_congr (writeData_congr (h y (by simp)).2) fun _ => ?_
    exact flat_congr L k k' (fun y hy => h y (by simp [hy])) fun n => hk (n + 1)

theorem lastFlag_mid (hv : s.Valid) {p a : Nat} {A B : List Nat} (h : s.kids p = A ++ a :: B) :
    lastFlag s a = B.isEmpty := by
  unfold lastFlag
  cases B with
  | nil => rw [next_last hv h]; rfl
  | cons b B => rw [next_mid hv h]; rfl

theorem lastFlag_map (hv : s.Valid) (hv' : s'.Valid) (ρ : Nat → Nat) : ∀ (t : Tree Nat), Tree.IsTree s.kids t →
    Tree.IsTree s'.kids (t.map ρ) → ∀ y ∈ Tree.preorderL t.subs, lastFlag s y = lastFlag s' (ρ y)
  | .node x ts, ⟨h1, h2⟩, ht', y, hy => by
    simp only [Tree.map] at ht'
    obtain ⟨h1', h2'⟩ := ht'
    rw [Tree.mapL_root] at h1'
    rw [Tree.mapL_eq] at h2'
    simp only [Tree.subs] at hy
    rw [Tree.mem_preorderL] at hy
    obtain ⟨u, hu, hy⟩ := hy
    rw [Tree.isForest_iff] at h2 h2'
    have hkid : ∀ y, y = u.root → lastFlag s y = lastFlag s' (ρ y) := by
      rintro y rfl
      obtain ⟨A, B, rfl⟩ := List.append_of_mem hu
      rw [lastFlag_mid hv (p := x) (A := A.map Tree.root) (B := B.map Tree.root) (by rw [h1]; simp),
        lastFlag_mid hv' (p := ρ x) (A := (A.map Tree.root).map ρ) (B := (B.map Tree.root).map ρ) (by rw [h1']; simp)]
      cases B <;> rfl
    cases hue : u with
    | node c us =>
      rw [hue] at hy
      simp only [Tree.preorder, List.mem_cons] at hy
      rcases hy with rfl | hy
      · exact hkid y (by rw [hue]; rfl)
      · exact lastFlag_map hv hv' ρ u (h2 u hu) (h2' _ (List.mem_map_of_mem hu)) y (by rw [hue]; exact hy)
termination_by t => sizeOf t
decreasing_by simp_wf; have := List.sizeOf_lt_of_mem hu; omega

theorem inner_congr (hm : Models f s) (hm' : Models g s') {t : Tree Nat} {ρ : Nat → Nat} (ht : Tree.IsTree s.kids t)
    (ht' : Tree.IsTree s'.kids (t.map ρ)) (hx : s.alive t.root = true) (hx' : s'.alive (ρ t.root) = true)
    (hd : ∀ y ∈ t.preorder, (f.getData y).map disp = (g.getData (ρ y)).map disp') :
    inner put disp f t.root = inner put disp' g (ρ t.root) := by
  have hr : (t.map ρ).root = ρ t.root := Tree.root_map ρ t
  rw [← hr] at hx'
  rw [← hr, inner_eq hm ht hx, inner_eq hm' ht' hx', hr]
  have hroot : t.root ∈ t.preorder := by cases t; simp [Tree.preorder, Tree.root]
  refine bind_congr (writeData_congr (hd _ hroot)) fun _ => ?_
  have htl : (t.map ρ).events.tail = t.events.tail.map (Ev.map ρ) := by rw [Tree.events_map, List.map_tail]
  rw [htl]
  have w := (dft_walk hm ht hx).tail
  have w' := (dft_walk hm' ht' hx').tail
  rw [htl] at w'
  refine flat_congr _ _ _ (fun y hy => ?_) fun n => ?_
  · refine ⟨lastFlag_map hm.valid hm'.valid ρ t ht ht' y ?_, hd y ?_⟩
    · cases t with
      | node x ts =>
        simp only [Tree.events, List.tail_cons, List.mem_append, List.mem_singleton, reduceCtorEq, or_false] at hy
        simp only [Tree.subs]
        rw [Tree.mem_preorderL]
        have : ∀ ts : List (Tree Nat), Ev.opn y ∈ Tree.eventsL ts → ∃ u ∈ ts, y ∈ u.preorder := by
          intro ts
          induction ts with
          | nil => intro h; simp [Tree.eventsL] at h
          | cons u us ih =>
            intro h
            simp only [Tree.eventsL, List.mem_append] at h
            rcases h with h | h
            · exact ⟨u, by simp, (Tree.opn_mem_events u y).1 h⟩
            · obtain ⟨v, hv, h⟩ := ih h; exact ⟨v, by simp [hv], h⟩
        exact this ts hy
    · rw [← Tree.opn_mem_events]; exact List.mem_of_mem_tail hy
  · have w1 := Walk.suffix w (List.drop_suffix n _)
    have w2 := Walk.suffix w' (List.drop_suffix n _)
    have e1 : Dft.next f.hier (ends (t.events.tail.drop n)) = _ := w1.deNext
    have e2 : Dft.next g.hier (ends ((t.events.tail.map (Ev.map ρ)).drop n)) = _ := w2.deNext
    simp only [e1, e2, ofR_bind]
    congr 1
    rw [← List.map_drop, List.head?_map, Option.isSome_map]

end DebugPrint

open DebugPrint in
theorem debugPrint_congr {S T U : Type} {put : S → Text → Except S S} {disp : T → Fmt}
    {disp' : U → Fmt} {f : Forest T} {g : Forest U} {s s' : Shape} (hm : Models f s) (hm' : Models g s')
    {t : Tree Nat} {ρ : Nat → Nat} (ht : Tree.IsTree s.kids t)
    (ht' : Tree.IsTree s'.kids (t.map ρ)) (hx : s.alive t.root = true) (hx' : s'.alive (ρ t.root) = true)
    (hd : ∀ y ∈ t.preorder, (f.getData y).map disp = (g.getData (ρ y)).map disp') :
    f.debugPrint put disp t.root = g.debugPrint put disp' (ρ t.root) := by
  funext σ
  unfold Forest.debugPrint
  have hn : f.node t.root = some t.root := by unfold Forest.node; rw [hm.isAlive, hx]; rfl
  have hn' : g.node (ρ t.root) = some (ρ t.root) := by unfold Forest.node; rw [hm'.isAlive, hx']; rfl
  rw [hn, hn', expect_some, expect_some]
  simp only [inner_congr (put := put) hm hm' ht ht' hx hx' hd]

end Treena
