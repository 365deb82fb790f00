import Verif.Proof.Plain
/-!
# The naive implementation simulates the modelled code: changes of the trees
-/
set_option autoImplicit false

namespace Treena
variable {T : Type}

/-- The list with the first occurrence of `a` replaced. -/
theorem flatMap_replace {L R : List Nat} {a : Nat} (hn : L.Nodup) (ha : a ∈ L) :
    (L.flatMap fun y => if y = a then R else [y]) = before L a ++ R ++ after L a := by
  have h1 : ∀ l : List Nat, a ∉ l → (l.flatMap fun y => if y = a then R else [y]) = l := by
    intro l hl
    induction l with
    | nil => rfl
    | cons b l ih =>
      simp at hl
      rw [List.flatMap_cons, ih hl.2, if_neg (fun e => hl.1 e.symm)]; rfl
  have hs := before_after ha
  have hb := not_mem_before a L
  have haf := not_mem_after (x := a) hn
  conv => lhs; rw [← hs]
  rw [List.flatMap_append, List.flatMap_cons, h1 _ hb, h1 _ haf, if_pos rfl, List.append_assoc]

theorem flatMap_keep {L R : List Nat} {a : Nat} (ha : a ∉ L) :
    (L.flatMap fun y => if y = a then R else [y]) = L := by
  induction L with
  | nil => rfl
  | cons b l ih =>
    simp at ha
    rw [List.flatMap_cons, ih ha.2, if_neg (fun e => ha.1 e.symm)]; rfl

namespace Wood
variable {w : List (Tree (Nat × T))} {s : Shape} {f : Forest T}

theorem Stored.editL {w : List (Tree (Nat × T))} (h : Stored w f)
    {g : Nat → List (Tree (Nat × T)) → List (Tree (Nat × T))} (hg : ∀ b l, Stored l f → Stored (g b l) f) :
    Stored (editL g w) f := by
  rw [editL_eq]
  intro t ht
  obtain ⟨u, hu, rfl⟩ := List.mem_map.1 ht
  exact all_edit (P := fun p => f.getData p.1 = some p.2) hg u (h u hu)

theorem Stored.filter (h : Stored w f) (p : Tree (Nat × T) → Bool) : Stored (w.filter p) f :=
  fun t ht => h t (List.mem_filter.1 ht).1

theorem Stored.append {w' : List (Tree (Nat × T))} (h : Stored w f) (h' : Stored w' f) : Stored (w ++ w') f := by
  intro t ht
  rcases List.mem_append.1 ht with ht | ht
  · exact h t ht
  · exact h' t ht

theorem Stored.cut (h : Stored w f) (x : Nat) : Stored (cut x w) f :=
  (h.editL fun _ _ h => h.filter _).filter _

theorem Stored.single {t : Tree (Nat × T)} (h : ∀ p ∈ t.preorder, f.getData p.1 = some p.2) : Stored [t] f := by
  intro u hu
  rw [List.mem_singleton] at hu
  subst hu; exact h

theorem Stored.of {t : Tree (Nat × T)} (h : Stored w f) (ht : t ∈ w) : Stored [t] f := Stored.single (h t ht)

theorem Stored.subs {t : Tree (Nat × T)} (h : Stored [t] f) : Stored t.subs f := by
  intro u hu p hp
  obtain ⟨a, ts⟩ := t
  refine h _ (List.mem_singleton.2 rfl) p ?_
  rw [Tree.preorder_node]
  exact List.mem_cons_of_mem _ (List.mem_flatMap.2 ⟨u, hu, hp⟩)

theorem Stored.flatMap (h : Stored w f) {F : Tree (Nat × T) → List (Tree (Nat × T))}
    (hF : ∀ t, Stored [t] f → Stored (F t) f) : Stored (w.flatMap F) f := by
  intro t ht
  obtain ⟨u, hu, ht⟩ := List.mem_flatMap.1 ht
  exact hF u (h.of hu) t ht

theorem Stored.graft {u : Tree (Nat × T)} (h : Stored w f) (hu : Stored [u] f) (pl : Place) :
    Stored (graft pl u w) f := by
  cases pl with
  | firstChildOf a =>
    refine h.editL fun b l hl => ?_
    split
    · exact hu.append hl
    · exact hl
  | lastChildOf a =>
    refine h.editL fun b l hl => ?_
    split
    · exact hl.append hu
    · exact hl
  | before a =>
    refine h.editL fun b l hl => hl.flatMap fun t ht => ?_
    split
    · exact hu.append ht
    · exact ht
  | after a =>
    refine h.editL fun b l hl => hl.flatMap fun t ht => ?_
    split
    · exact ht.append hu
    · exact ht

theorem Stored.dissolve (h : Stored w f) (x : Nat) : Stored (dissolve x w) f := by
  refine h.editL fun b l hl => hl.flatMap fun t ht => ?_
  split
  · exact ht.subs
  · exact ht

theorem Stored.data {f' : Forest T} (h : Stored w f) (hd : f'.data = f.data) : Stored w f' := by
  intro t ht p hp
  have := h t ht p hp
  rw [Forest.getData] at this ⊢
  rw [hd]; exact this

/-! ### Shapes -/

theorem map_idOf_cut (x : Nat) : (cut x w).map idOf = (w.map idOf).filter fun y => decide (y ≠ x) := by
  rw [cut, editL_eq, ← map_idOf_edit (fun _ l => l.filter fun t => decide (idOf t ≠ x)) w,
    List.filter_map (f := idOf)]
  rfl

theorem erase_eq {L : List Nat} (h : L.Nodup) (x : Nat) : L.erase x = L.filter fun y => decide (y ≠ x) := by
  rw [h.erase_eq_filter]
  congr 1; funext y; simp [bne, BEq.beq]

theorem Shaped.detach (h : Shaped w s) (hv : s.Valid) {x : Nat} (hx : s.alive x = true) {u : Tree (Nat × T)}
    (hu : idOf u = x) (ht : Tree.IsTree s.kids (sk u)) : Shaped (cut x w ++ [u]) (s.detach x) := by
  refine ⟨fun t hm => ?_, fun y => ?_, ?_⟩
  · rcases List.mem_append.1 hm with hm | hm
    · have hm := (List.mem_filter.1 hm).1
      rw [editL_eq] at hm
      obtain ⟨t0, h0, rfl⟩ := List.mem_map.1 hm
      refine isTree_edit (kids := s.kids) (fun _ => True) (fun b l _ hl hk => ⟨?_, fun t ht => hk t (List.mem_filter.1 ht).1⟩)
        t0 (fun _ _ => trivial) (h.tree t0 h0)
      show _ = (s.kids b).erase x
      rw [erase_eq (hv.kids_nodup b), ← hl, List.filter_map]; rfl
    · rw [List.mem_singleton] at hm
      subst hm
      rw [← hu, ← root_sk]
      exact Tree.isTree_detach hv ht
  · rw [List.map_append, List.mem_append, map_idOf_cut, List.mem_filter, h.roots]
    simp only [Shape.detach, Shape.upd, List.map_cons, List.map_nil, List.mem_singleton, hu]
    by_cases e : y = x
    · subst e; simp [hx]
    · simp [e]
  · rw [List.map_append, map_idOf_cut, List.nodup_append]
    refine ⟨h.nodup.filter _, by simp, ?_⟩
    intro a ha b hb e
    subst e
    simp [hu] at hb
    rw [List.mem_filter] at ha
    simp [hb] at ha

theorem detach_root_eq (hv : s.Valid) {x : Nat} (hp : s.parent x = none) : s.detach x = s := by
  have h4 : Shape.upd s.parent x none = s.parent := by
    funext y; simp only [Shape.upd]; split
    · rename_i e; rw [e, hp]
    · rfl
  have h5 : (fun q => (s.kids q).erase x) = s.kids := by
    funext q; refine List.erase_of_not_mem fun h => ?_
    rw [hv.mem_kids, hp] at h; cases h
  unfold Shape.detach; rw [h4, h5]

theorem map_idOf_flatMap (l : List (Tree (Nat × T))) (F : Tree (Nat × T) → List (Tree (Nat × T))) (a : Nat)
    (R : List Nat) (hF : ∀ t ∈ l, (F t).map idOf = if idOf t = a then R else [idOf t]) :
    (l.flatMap F).map idOf = (l.map idOf).flatMap fun y => if y = a then R else [y] := by
  rw [List.map_flatMap, List.flatMap_map]
  exact List.flatMap_congr hF

theorem map_idOf_graft (pl : Place) (u : Tree (Nat × T)) : (graft pl u w).map idOf = w.map idOf := by
  cases pl <;> simp only [graft, editL_eq, map_idOf_edit]

/-- Making the root `u` a child of `P`. -/
theorem Shaped.graft {u : Tree (Nat × T)} (h : Shaped (w ++ [u]) s) (hv : s.Valid) {pl : Place} {P : Nat}
    (hp : s.placeParent pl = some P) (hP : P ∉ (sk u).preorder) :
    Shaped (graft pl u w) (s.attach (idOf u) P (pl.put (idOf u) (s.kids P))) := by
  have hu := h.tree u (by simp)
  have hnd := h.nodup
  rw [List.map_append, List.nodup_append] at hnd
  have hxw : idOf u ∉ w.map idOf := fun hm => hnd.2.2 _ hm _ (by simp) rfl
  have hr := h.root_alive (t := u) (by simp)
  rw [root_sk] at hr
  refine ⟨fun t ht => ?_, fun y => ?_, by rw [map_idOf_graft]; exact hnd.1⟩
  · have huk : Tree.IsTree (s.attach (idOf u) P (pl.put (idOf u) (s.kids P))).kids (sk u) := by
      refine Tree.isTree_congr _ (fun y hy => ?_) hu
      simp only [Shape.attach, Shape.upd]
      rw [if_neg]
      rintro rfl; exact hP hy
    have hw : ∀ t ∈ w, Tree.IsTree s.kids (sk t) := fun t ht => h.tree t (by simp [ht])
    cases pl with
    | firstChildOf a =>
      cases hp
      simp only [Wood.graft, editL_eq] at ht
      obtain ⟨t0, h0, rfl⟩ := List.mem_map.1 ht
      refine isTree_edit (fun _ => True) (fun b l _ hl hk => ?_) t0 (fun _ _ => trivial) (hw t0 h0)
      simp only [Shape.attach, Shape.upd]
      split
      · rename_i e; subst e
        refine ⟨by simp [Place.put, hl], fun t ht => ?_⟩
        rcases List.mem_cons.1 ht with rfl | ht
        · exact huk
        · exact hk t ht
      · exact ⟨hl, hk⟩
    | lastChildOf a =>
      cases hp
      simp only [Wood.graft, editL_eq] at ht
      obtain ⟨t0, h0, rfl⟩ := List.mem_map.1 ht
      refine isTree_edit (fun _ => True) (fun b l _ hl hk => ?_) t0 (fun _ _ => trivial) (hw t0 h0)
      simp only [Shape.attach, Shape.upd]
      split
      · rename_i e; subst e
        refine ⟨by simp [Place.put, hl], fun t ht => ?_⟩
        rcases List.mem_append.1 ht with ht | ht
        · exact hk t ht
        · rw [List.mem_singleton] at ht; subst ht; exact huk
      · exact ⟨hl, hk⟩
    | before a =>
      have hp : s.parent a = some P := hp
      simp only [Wood.graft, editL_eq] at ht
      obtain ⟨t0, h0, rfl⟩ := List.mem_map.1 ht
      refine isTree_edit (fun _ => True) (fun b l _ hl hk => ⟨?_, fun t ht => ?_⟩) t0 (fun _ _ => trivial) (hw t0 h0)
      · rw [map_idOf_flatMap l _ a [idOf u, a] (fun t _ => by split <;> simp_all), hl]
        simp only [Shape.attach, Shape.upd]
        split
        · rename_i e; subst e
          rw [flatMap_replace (hv.kids_nodup _) ((hv.mem_kids _ _).2 hp)]
          simp [Place.put]
        · rename_i e
          refine flatMap_keep fun hm => e ?_
          rw [hv.mem_kids, hp] at hm
          cases hm; rfl
      · obtain ⟨v, hv', ht⟩ := List.mem_flatMap.1 ht
        split at ht
        · rcases List.mem_cons.1 ht with rfl | ht
          · exact huk
          · rw [List.mem_singleton] at ht; subst ht; exact hk t hv'
        · rw [List.mem_singleton] at ht; subst ht; exact hk t hv'
    | after a =>
      have hp : s.parent a = some P := hp
      simp only [Wood.graft, editL_eq] at ht
      obtain ⟨t0, h0, rfl⟩ := List.mem_map.1 ht
      refine isTree_edit (fun _ => True) (fun b l _ hl hk => ⟨?_, fun t ht => ?_⟩) t0 (fun _ _ => trivial) (hw t0 h0)
      · rw [map_idOf_flatMap l _ a [a, idOf u] (fun t _ => by split <;> simp_all), hl]
        simp only [Shape.attach, Shape.upd]
        split
        · rename_i e; subst e
          rw [flatMap_replace (hv.kids_nodup _) ((hv.mem_kids _ _).2 hp)]
          simp [Place.put]
        · rename_i e
          refine flatMap_keep fun hm => e ?_
          rw [hv.mem_kids, hp] at hm
          cases hm; rfl
      · obtain ⟨v, hv', ht⟩ := List.mem_flatMap.1 ht
        split at ht
        · rcases List.mem_cons.1 ht with rfl | ht
          · exact hk t hv'
          · rw [List.mem_singleton] at ht; subst ht; exact huk
        · rw [List.mem_singleton] at ht; subst ht; exact hk t hv'
  · have := h.roots y
    rw [List.map_append, List.mem_append] at this
    rw [map_idOf_graft]
    simp only [Shape.attach, Shape.upd]
    by_cases e : y = idOf u
    · subst e; simp [hxw]
    · rw [if_neg e, ← this]; simp [e]

/-- A new root. -/
theorem Shaped.addRoot (h : Shaped w s) (hv : s.Valid) (d : T) :
    Shaped (w ++ [.node (s.size, d) []]) s.addRoot := by
  have hd : s.alive s.size = false := hv.dead_size
  refine ⟨fun t ht => ?_, fun y => ?_, ?_⟩
  · rcases List.mem_append.1 ht with ht | ht
    · exact h.tree t ht
    · rw [List.mem_singleton] at ht; subst ht
      rw [isTree_sk_node]
      exact ⟨hv.dead_kids hd, by simp⟩
  · rw [List.map_append, List.mem_append, h.roots]
    simp only [Shape.addRoot, Shape.upd, List.map_cons, List.map_nil, List.mem_singleton, idOf, Tree.root]
    by_cases e : y = s.size
    · subst e; simp [hv.dead_parent hd]
    · simp [e]
  · rw [List.map_append, List.nodup_append]
    refine ⟨h.nodup, by simp, ?_⟩
    intro a ha b hb e
    subst e
    simp only [List.map_cons, List.map_nil, List.mem_singleton, idOf, Tree.root] at hb
    rw [h.roots, hb, hd] at ha
    simp at ha

/-- What is left has no node of the tree at `x`. -/
theorem Shaped.cut_disjoint (h : Shaped w s) (hv : s.Valid) {x : Nat} (hx : s.alive x = true) {u : Tree (Nat × T)}
    (hu : idOf u = x) (ht : Tree.IsTree s.kids (sk u)) :
    ∀ t ∈ cut x w, ∀ y ∈ (sk t).preorder, y ∉ (sk u).preorder := by
  have h1 := h.detach hv hx hu ht
  have hv1 := hv.detach x
  have hnd := h1.nodup
  rw [List.map_append, List.nodup_append] at hnd
  have hxw : x ∉ (cut x w).map idOf := fun hm => hnd.2.2 _ hm _ (by simp) hu.symm
  intro t hm y hy hy'
  have := h1.disjoint hv1 (t := t) (u := u) (by simp [hm]) (by simp) hy hy'
  refine hxw (List.mem_map.2 ⟨t, hm, ?_⟩)
  rw [this, hu]

theorem Stored.strip (h : Stored w f) (D : List Nat) : Stored (strip D w) f :=
  (h.editL fun _ _ h => h.filter _).filter _

/-- Nothing of `D` is left, except possibly the root. -/
theorem mem_edit_filter (D : List Nat) : ∀ t : Tree (Nat × T),
    ∀ p ∈ (edit (fun _ l => l.filter fun t => decide (idOf t ∉ D)) t).preorder, p.1 = idOf t ∨ p.1 ∉ D := by
  refine Tree.ind fun a ts ih p hp => ?_
  rw [edit_node, Tree.preorder_node] at hp
  rcases List.mem_cons.1 hp with rfl | hp
  · exact .inl rfl
  · obtain ⟨t, ht, hp⟩ := List.mem_flatMap.1 hp
    obtain ⟨ht, hd⟩ := List.mem_filter.1 ht
    obtain ⟨u, hu, rfl⟩ := List.mem_map.1 ht
    rw [idOf_edit] at hd
    right
    rcases ih u hu p hp with e | e
    · rw [e]; simpa using hd
    · exact e

/-- Without the trees at `D`. -/
theorem Shaped.strip (h : Shaped w s) (D : List Nat) : Shaped (strip D w) (s.kill fun z => decide (z ∈ D)) := by
  have hids : (Wood.strip D w).map idOf = (w.map idOf).filter fun y => decide (y ∉ D) := by
    rw [Wood.strip, editL_eq, ← map_idOf_edit (fun _ l => l.filter fun t => decide (idOf t ∉ D)) w,
      List.filter_map (f := idOf)]
    rfl
  refine ⟨fun t ht => ?_, fun y => ?_, by rw [hids]; exact h.nodup.filter _⟩
  · obtain ⟨ht, hd⟩ := List.mem_filter.1 ht
    rw [editL_eq] at ht
    obtain ⟨u, hu, rfl⟩ := List.mem_map.1 ht
    rw [idOf_edit] at hd
    have h1 : Tree.IsTree (fun q => (s.kids q).filter fun y => decide (y ∉ D))
        (sk (edit (fun _ l => l.filter fun t => decide (idOf t ∉ D)) u)) := by
      refine isTree_edit (kids := s.kids) (fun _ => True) (fun b l _ hl hk => ⟨?_, fun t ht => hk t (List.mem_filter.1 ht).1⟩)
        u (fun _ _ => trivial) (h.tree u hu)
      rw [← hl, List.filter_map]; rfl
    refine Tree.isTree_congr _ (fun y hy => ?_) h1
    rw [preorder_sk] at hy
    obtain ⟨p, hp, rfl⟩ := List.mem_map.1 hy
    have hpD : p.1 ∉ D := by
      rcases mem_edit_filter D u p hp with e | e
      · rw [e]; simpa using hd
      · exact e
    simp [Shape.kill, hpD]
  · rw [hids, List.mem_filter, h.roots]
    simp only [Shape.kill]
    by_cases e : y ∈ D <;> simp [e]

/-- What is left has no node of `D`. -/
theorem strip_free {D : List Nat} : ∀ t ∈ strip D w, ∀ p ∈ t.preorder, p.1 ∉ D := by
  intro t ht p hp
  obtain ⟨ht, hd⟩ := List.mem_filter.1 ht
  rw [editL_eq] at ht
  obtain ⟨u, hu, rfl⟩ := List.mem_map.1 ht
  rw [idOf_edit] at hd
  rcases mem_edit_filter D u p hp with e | e
  · rw [e]; simpa using hd
  · exact e

/-- Without the tree at `x`. -/
theorem Shaped.remove (h : Shaped w s) (hv : s.Valid) {x : Nat} (hx : s.alive x = true) {u : Tree (Nat × T)}
    (hu : idOf u = x) (ht : Tree.IsTree s.kids (sk u)) :
    Shaped (cut x w) (s.kill fun z => decide (z ∈ (sk u).preorder)) := by
  have h1 := h.detach hv hx hu ht
  have hv1 := hv.detach x
  have hr : (sk u).root = x := by rw [root_sk, hu]
  have hmem := Tree.mem_preorder_iff hv ht
  have hnd := h1.nodup
  rw [List.map_append, List.nodup_append] at hnd
  have hxw : x ∉ (cut x w).map idOf := fun hm => hnd.2.2 _ hm _ (by simp) hu.symm
  have hdis := h.cut_disjoint hv hx hu ht
  refine ⟨fun t hm => ?_, fun y => ?_, hnd.1⟩
  · refine Tree.isTree_congr _ (fun y hy => ?_) (h1.tree t (by simp [hm]))
    have hyu := hdis t hm y hy
    simp only [Shape.kill, Shape.detach, hyu, decide_false, Bool.false_eq_true, if_false]
    rw [erase_eq (hv.kids_nodup y)]
    refine List.filter_congr fun c hc => ?_
    rw [Bool.eq_iff_iff]
    simp only [decide_eq_true_eq, Bool.not_eq_true', decide_eq_false_iff_not]
    have hcp := (hv.mem_kids _ _).1 hc
    rw [hmem, hr]
    constructor
    · intro hne ha
      cases ha with
      | refl => exact hne rfl
      | step hq ha =>
        rw [hcp] at hq; cases hq
        exact hyu ((hmem _).2 (by rw [hr]; exact ha))
    · rintro hna rfl; exact hna .refl
  · rw [map_idOf_cut, List.mem_filter, h.roots]
    simp only [Shape.kill, decide_eq_true_eq]
    constructor
    · rintro ⟨⟨ha, hp⟩, hne⟩
      have : y ∉ (sk u).preorder := by
        rw [hmem, hr]
        intro hq
        cases hq with
        | refl => exact hne rfl
        | step hq _ => rw [hp] at hq; cases hq
      simp [ha, hp, this]
    · rintro ⟨ha, hp⟩
      simp only [Bool.and_eq_true, Bool.not_eq_true', decide_eq_false_iff_not] at ha
      rw [if_neg ha.2] at hp
      refine ⟨⟨ha.1, hp⟩, ?_⟩
      rintro rfl
      exact ha.2 (by rw [← hr]; exact Tree.root_mem_preorder _)

/-! ### Dissolving a node -/

/-- The edit made by `dissolve`. -/
def lift (x : Nat) : Nat → List (Tree (Nat × T)) → List (Tree (Nat × T)) :=
  fun _ l => l.flatMap fun t => if idOf t = x then t.subs else [t]

theorem lift_free (x : Nat) : ∀ t : Tree (Nat × T), ∀ c ∈ (edit (lift x) t).subs, x ∉ (sk c).preorder := by
  refine Tree.ind fun a ts ih c hc => ?_
  rw [edit_node] at hc
  obtain ⟨v, hv, hc⟩ := List.mem_flatMap.1 (show c ∈ (ts.map (edit (lift x))).flatMap _ from hc)
  obtain ⟨t0, h0, rfl⟩ := List.mem_map.1 hv
  split at hc
  · exact ih t0 h0 c hc
  · rename_i hne
    rw [List.mem_singleton] at hc; subst hc
    have := ih t0 h0
    obtain ⟨b, bs⟩ := t0
    rw [edit_node] at hne this ⊢
    rw [sk_node, Tree.preorder_node]
    simp only [List.mem_cons, List.mem_flatMap, List.mem_map, not_or]
    refine ⟨fun e => hne e.symm, ?_⟩
    rintro ⟨_, ⟨t, ht, rfl⟩, hx⟩
    exact this t ht hx

theorem Shaped.dissolve (h : Shaped w s) (hv : s.Valid) {x p : Nat} (hp : s.parent x = some p) (d : T) :
    Shaped (dissolve x w ++ [.node (x, d) []]) (s.splice x p) := by
  have hxp : x ≠ p := by rintro rfl; exact (hv.rooted x).acyclic hp .refl
  have hxx : x ∉ s.kids x := fun hm => (hv.rooted x).acyclic ((hv.mem_kids _ _).1 hm) .refl
  have hxw : x ∉ w.map idOf := fun hm => by rw [h.roots, hp] at hm; simp at hm
  have hx := (hv.parent_alive _ _ hp).1
  have hds : Wood.dissolve x w = w.map (edit (lift x)) := editL_eq _ _
  have hids : (Wood.dissolve x w).map idOf = w.map idOf := by rw [hds, map_idOf_edit]
  refine ⟨fun t ht => ?_, fun y => ?_, ?_⟩
  · rcases List.mem_append.1 ht with ht | ht
    · rw [hds] at ht
      obtain ⟨t0, h0, rfl⟩ := List.mem_map.1 ht
      have h1 : Tree.IsTree (Shape.upd s.kids p (before (s.kids p) x ++ s.kids x ++ after (s.kids p) x))
          (sk (edit (lift x) t0)) := by
        refine isTree_edit (fun _ => True) (fun b l _ hl hk => ⟨?_, fun t ht => ?_⟩) t0 (fun _ _ => trivial) (h.tree t0 h0)
        · rw [lift, map_idOf_flatMap l _ x (s.kids x) (fun t hm => ?_), hl]
          · simp only [Shape.upd]
            split
            · rename_i e; subst e
              exact flatMap_replace (hv.kids_nodup _) ((hv.mem_kids _ _).2 hp)
            · rename_i e
              refine flatMap_keep fun hm => e ?_
              rw [hv.mem_kids, hp] at hm
              cases hm; rfl
          · split
            · rename_i e
              have := hk t hm
              obtain ⟨a, ts⟩ := t
              rw [isTree_sk_node] at this
              have e : a.1 = x := e
              rw [e, Shape.upd, if_neg hxp] at this
              exact this.1.symm
            · rfl
        · obtain ⟨v, hm, ht⟩ := List.mem_flatMap.1 ht
          split at ht
          · have := hk v hm
            obtain ⟨a, ts⟩ := v
            rw [isTree_sk_node] at this
            exact this.2 t ht
          · rw [List.mem_singleton] at ht; subst ht; exact hk t hm
      refine Tree.isTree_congr _ (fun y hy => ?_) h1
      have hyx : y ≠ x := by
        rintro rfl
        have hfree := lift_free y t0
        have hid : idOf (edit (lift y) t0) ≠ y := fun e => hxw (by
          rw [idOf_edit] at e; exact e ▸ List.mem_map_of_mem h0)
        generalize edit (lift y) t0 = v at *
        obtain ⟨a, ts⟩ := v
        rw [sk_node, Tree.preorder_node] at hy
        simp only [List.mem_cons, List.mem_flatMap, List.mem_map] at hy
        rcases hy with e | ⟨_, ⟨t, ht, rfl⟩, hy⟩
        · exact hid e.symm
        · exact hfree t ht hy
      simp [Shape.splice, Shape.upd, hyx]
    · rw [List.mem_singleton] at ht; subst ht
      rw [isTree_sk_node]
      exact ⟨by simp [Shape.splice], by simp⟩
  · rw [List.map_append, List.mem_append, hids, h.roots]
    simp only [List.map_cons, List.map_nil, List.mem_singleton, idOf, Tree.root, Shape.splice]
    by_cases e : y = x
    · subst e; simp [hx]
    · simp only [e, or_false, if_false]
      split
      · rename_i hm
        rw [(hv.mem_kids _ _).1 hm]; simp
      · rfl
  · rw [List.map_append, List.nodup_append, hids]
    refine ⟨h.nodup, by simp, ?_⟩
    intro a ha b hb e
    subst e
    simp only [List.map_cons, List.map_nil, List.mem_singleton, idOf, Tree.root] at hb
    subst hb
    exact hxw ha

/-- Setting the only child of a root free. -/
theorem Shaped.free {a : Nat × T} {c : Tree (Nat × T)} (h : Shaped (w ++ [.node a [c]]) s) (hv : s.Valid) :
    Shaped (w ++ [.node a [], c]) (s.detach (idOf c)) := by
  have ht := h.tree (.node a [c]) (by simp)
  rw [isTree_sk_node] at ht
  have hk : s.kids a.1 = [idOf c] := ht.1
  have hpc : s.parent (idOf c) = some a.1 := (hv.mem_kids _ _).1 (by rw [hk]; simp)
  have hcr : ∀ y, y = idOf c → ¬ (s.alive y = true ∧ s.parent y = none) := by
    rintro y rfl ⟨_, h⟩; rw [hpc] at h; cases h
  have hno : ∀ q, q ≠ a.1 → (s.kids q).erase (idOf c) = s.kids q := by
    intro q hq
    refine List.erase_of_not_mem fun hm => hq ?_
    rw [hv.mem_kids, hpc] at hm; cases hm; rfl
  have hnd := h.nodup
  rw [List.map_append, List.nodup_append] at hnd
  have haw : a.1 ∉ w.map idOf := fun hm => hnd.2.2 _ hm _ (by simp [idOf, Tree.root]) rfl
  have hroots : ∀ y, (y ∈ w.map idOf ∨ y = a.1) ↔ s.alive y = true ∧ s.parent y = none := by
    intro y
    have := h.roots y
    rw [List.map_append, List.mem_append] at this
    simpa [idOf, Tree.root] using this
  have hac : s.alive (idOf c) = true := (hv.parent_alive _ _ hpc).1
  have hca : idOf c ≠ a.1 := by
    intro e; rw [e] at hpc; exact (hv.rooted a.1).acyclic hpc .refl
  have hcw : idOf c ∉ w.map idOf := fun hm => hcr _ rfl ((hroots _).1 (.inl hm))
  refine ⟨fun t hm => ?_, fun y => ?_, ?_⟩
  · rcases List.mem_append.1 hm with hm | hm
    · refine Tree.isTree_congr _ (fun y hy => ?_) (h.tree t (by simp [hm]))
      refine (hno y ?_).symm
      rintro rfl
      have := h.disjoint hv (t := t) (u := .node a [c]) (by simp [hm]) (by simp) hy
        (by rw [sk_node, Tree.preorder_node]; simp)
      exact haw (by rw [show a.1 = idOf t from this.symm]; exact List.mem_map_of_mem hm)
    · simp only [List.mem_cons, List.not_mem_nil, or_false] at hm
      rcases hm with rfl | rfl
      · rw [isTree_sk_node]
        exact ⟨by simp [Shape.detach, hk], by simp⟩
      · rw [← root_sk]
        exact Tree.isTree_detach hv (ht.2 t (by simp))
  · have := hroots y
    simp only [List.map_append, List.mem_append, List.map_cons, List.map_nil, List.mem_cons, List.not_mem_nil, or_false,
      Shape.detach, Shape.upd, show idOf (.node a []) = a.1 from rfl]
    by_cases e : y = idOf c
    · subst e; simp [hac]
    · simp only [e, or_false, if_false]; exact this
  · rw [List.map_append, List.nodup_append]
    refine ⟨hnd.1, ?_, ?_⟩
    · simp [show idOf (.node a []) = a.1 from rfl, Ne.symm hca]
    · intro y hy z hz e
      subst e
      simp only [List.map_cons, List.map_nil, List.mem_cons, List.not_mem_nil, or_false,
        show idOf (.node a []) = a.1 from rfl] at hz
      rcases hz with rfl | rfl
      · exact haw hy
      · exact hcw hy

/-! ### Planting trees of new nodes -/

mutual
theorem sk_stamp : ∀ (t : Tree T) (b : Nat), sk (stamp b t) = t.number b
  | .node d ts, b => by rw [stamp, Tree.number, sk, Tree.map, mapL_stampL ts (b + 1)]
theorem mapL_stampL : ∀ (ts : List (Tree T)) (b : Nat), Tree.mapL (·.1) (stampL b ts) = Tree.numberL b ts
  | [], b => rfl
  | t :: ts, b => by
    rw [stampL, Tree.numberL, Tree.mapL, mapL_stampL ts]
    congr 1
    exact sk_stamp t b
end

mutual
theorem preorder_stamp : ∀ (t : Tree T) (b : Nat), (stamp b t).preorder = (List.range' b t.count).zip t.preorder
  | .node d ts, b => by
    rw [stamp, Tree.preorder, Tree.preorder, Tree.count, preorderL_stampL ts, List.range'_succ]; rfl
theorem preorderL_stampL : ∀ (ts : List (Tree T)) (b : Nat),
    Tree.preorderL (stampL b ts) = (List.range' b (Tree.countL ts)).zip (Tree.preorderL ts)
  | [], b => rfl
  | t :: ts, b => by
    rw [stampL, Tree.preorderL, Tree.preorderL, Tree.countL, preorder_stamp t, preorderL_stampL ts,
      ← List.range'_append_1, List.zip_append]
    rw [List.length_range', Tree.length_preorder]
end

end Wood

namespace Plain
open Wood
variable {r : Plain T} {f : Forest T} {s : Shape}

theorem Abs.planted (h : Abs r f s) {t : Tree T} {g : Forest T} {s' : Shape} (hp : Planted f s t g s') :
    Abs ⟨r.issued + t.count, r.trees ++ [stamp r.issued t]⟩ g s' := by
  have hv := h.models.valid
  have hv' := hp.grown.models.valid
  have hsz := h.size
  rw [← hsz]
  have hsk := sk_stamp t s.size
  have hid : idOf (stamp s.size t) = s.size := by cases t; rfl
  have hlt : ∀ u ∈ r.trees, ∀ y ∈ (sk u).preorder, y < s.size := by
    intro u hu y hy
    exact hv.alive_lt y ((h.shaped.mem_ids hv y).1 (Wood.mem_ids.2 ⟨u, hu, hy⟩))
  have hroot : ∀ y ∈ r.trees.map idOf, y < s.size := by
    intro y hy
    exact hv.alive_lt y ((h.shaped.roots y).1 hy).1
  refine ⟨hp.grown.models, hp.size, ⟨fun u hu => ?_, fun y => ?_, ?_⟩, fun u hu p hpu => ?_⟩
  · rcases List.mem_append.1 hu with hu | hu
    · refine Tree.isTree_congr _ (fun y hy => ?_) (h.shaped.tree u hu)
      exact (hp.grown.kids y (hlt u hu y hy)).symm
    · rw [List.mem_singleton] at hu; subst hu
      rw [hsk]; exact hp.tree
  · rw [List.map_append, List.mem_append]
    simp only [List.map_cons, List.map_nil, List.mem_singleton, hid]
    by_cases hy : y < s.size
    · rw [hp.grown.alive y hy, hp.grown.parent y hy, ← h.shaped.roots]
      simp [Nat.ne_of_lt hy]
    · have hn : y ∉ r.trees.map idOf := fun hm => hy (hroot y hm)
      constructor
      · rintro (hm | rfl)
        · exact absurd hm hn
        · refine ⟨hp.alive _ (Nat.le_refl _) ?_, hp.root⟩
          rw [hp.size]
          have : 0 < t.count := by cases t; rw [Tree.count]; omega
          omega
      · rintro ⟨ha, hpar⟩
        right
        have hylt := hv'.alive_lt y ha
        have hmem : y ∈ (t.number s.size).preorder := by
          rw [Tree.preorder_number, List.mem_range'_1]
          rw [hp.size] at hylt
          omega
        rw [Tree.mem_preorder_iff hv' hp.tree] at hmem
        cases hmem with
        | refl => cases t; rfl
        | step hq _ => rw [hpar] at hq; cases hq
  · rw [List.map_append, List.nodup_append]
    refine ⟨h.shaped.nodup, by simp, ?_⟩
    intro a ha b hb e
    subst e
    simp only [List.map_cons, List.map_nil, List.mem_singleton, hid] at hb
    have := hroot a ha
    omega
  · rcases List.mem_append.1 hu with hu | hu
    · have : p.1 < s.size := hlt u hu p.1 (by rw [preorder_sk]; exact List.mem_map_of_mem hpu)
      rw [hp.grown.data _ this]
      exact h.stored u hu p hpu
    · rw [List.mem_singleton] at hu; subst hu
      rw [preorder_stamp] at hpu
      obtain ⟨i, hi, rfl⟩ := List.mem_iff_getElem.1 hpu
      rw [List.length_zip, List.length_range', Tree.length_preorder, Nat.min_self] at hi
      simp only [List.getElem_zip, List.getElem_range', Forest.getData, hp.data]
      rw [List.getElem?_append_right (by rw [h.models.dataLen]; omega), h.models.dataLen]
      have hi' : i < t.preorder.length := by rw [Tree.length_preorder]; exact hi
      simp [hi']

end Plain
end Treena
