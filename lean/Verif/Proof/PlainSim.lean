import Verif.Proof.PlainRead
import Verif.Proof.PlainEdit
import Verif.Proof.Consist
import Verif.Props.Insert
import Verif.Props.Remove
/-!
# The naive implementation simulates the modelled code: mutating calls
-/
set_option autoImplicit false

namespace Treena
variable {T : Type}

namespace Plain
open Wood
variable {r : Plain T} {f : Forest T} {s : Shape}

/-- The modelled result `x` is the naive result `y`, and the states correspond. -/
def Sim (x : Forest T × Ans T) (y : Plain T × Ans T) : Prop := x.2 = y.2 ∧ ∃ s, Abs y.1 x.1 s

theorem Abs.sim (h : Abs r f s) (a : Ans T) : Sim (f, a) (r, a) := ⟨rfl, s, h⟩

theorem Sim.mk' {x : Forest T × Ans T} {y : Plain T × Ans T} {f' : Forest T} {r' : Plain T} {a : Ans T} {s' : Shape}
    (hx : x = (f', a)) (hy : y = (r', a)) (h : Abs r' f' s') : Sim x y := by
  subst hx; subst hy; exact ⟨rfl, s', h⟩

theorem Abs.addRoot (h : Abs r f s) {f' : Forest T} (d : T) (hm : Models f' s.addRoot)
    (hd : ∀ x, f'.getData x = if x = s.size then some d else f.getData x) :
    Abs ⟨r.issued + 1, r.trees ++ [.node (r.issued, d) []]⟩ f' s.addRoot := by
  have hv := h.models.valid
  refine ⟨hm, by rw [← h.size]; rfl, by rw [← h.size]; exact h.shaped.addRoot hv d, ?_⟩
  refine Stored.append (fun t ht p hp => ?_) (Stored.single fun p hp => ?_)
  · have hlt : p.1 < s.size := hv.alive_lt _ ((h.shaped.mem_ids hv _).1 (Wood.mem_ids.2 ⟨t, ht, by
      rw [preorder_sk]; exact List.mem_map_of_mem hp⟩))
    rw [hd, if_neg (by omega)]
    exact h.stored t ht p hp
  · rw [Tree.preorder_node] at hp
    simp only [List.flatMap_nil, List.mem_singleton] at hp
    subst hp
    rw [hd, ← h.size, if_pos rfl]

theorem Abs.createRoot (h : Abs r f s) (cap : Nat) (d : T) :
    Sim (Ans.ofRes .id (Forest.createRoot cap d f)) (r.createRoot cap d) := by
  unfold Plain.createRoot
  split
  · rename_i hc
    rw [createRoot_full h.models (by rw [h.size]; exact hc)]
    exact h.sim _
  · rename_i hc
    obtain ⟨f', h1, h2, h3⟩ := createRoot_models h.models (cap := cap) (by rw [h.size]; omega) d
    rw [h1]
    exact ⟨by rw [← h.size]; rfl, _, h.addRoot d h2 h3⟩

theorem Abs.createInsert (h : Abs r f s) (cap : Nat) (d : T) (dest : InsertAs) :
    Sim (Ans.ofRes .id (Forest.createInsert cap d dest f)) (r.createInsert cap d dest.place) := by
  have hm := h.models
  have hv := hm.valid
  unfold Plain.createInsert
  split
  · rename_i hc
    by_cases ha : s.size ≤ dest.place.anchor
    · rw [createInsert_invalid hm d ha]; exact h.sim _
    · rw [createInsert_full' hm (by rw [h.size] at *; omega) d (by omega)]; exact h.sim _
  · rename_i hc
    have ha : dest.place.anchor < s.size := by rw [h.size]; omega
    have hcap : s.size < cap := by rw [h.size]; omega
    split
    · rename_i hb
      rw [h.alive, h.placeParent] at hb
      obtain ⟨msg, f', h1, h2, h3⟩ := createInsert_orphan hm hcap d ha hb
      rw [h1]
      exact ⟨rfl, _, h.addRoot d h2 h3⟩
    · rename_i hb
      rw [h.alive, h.placeParent, not_or] at hb
      obtain ⟨hal, hpp⟩ := hb
      have hal : s.alive dest.place.anchor = true := by simpa using hal
      cases hP : s.placeParent dest.place with
      | none => exact absurd hP hpp
      | some P =>
        obtain ⟨f', h1, h2, h3⟩ := createInsert_models hm hcap d hal hP
        rw [h1]
        refine ⟨by rw [← h.size]; rfl, s.addRoot.move s.size dest.place, h2, ?_, ?_, ?_⟩
        · have : (s.addRoot.move s.size dest.place).size = s.size + 1 := by
            unfold Shape.move; cases s.addRoot.placeParent dest.place <;> rfl
          rw [this, h.size]
        · have hvr : s.addRoot.Valid := hv.addRoot
          have hd0 := hv.dead_size
          have hsh := h.shaped.addRoot hv d
          have hP' : s.addRoot.placeParent dest.place = some P := by
            rw [← hP]; cases dest.place <;> rfl
          have hPal : s.alive P = true := by
            generalize dest.place = pl at *
            cases pl with
            | firstChildOf a => cases hP; exact hal
            | lastChildOf a => cases hP; exact hal
            | before a => exact (hv.parent_alive a P hP).2
            | after a => exact (hv.parent_alive a P hP).2
          have hg := hsh.graft hvr hP' (by
            rw [sk_node, Tree.preorder_node]
            simp
            rintro rfl
            rw [hd0] at hPal; cases hPal)
          rw [← h.size]
          unfold Shape.move
          rw [hP', detach_root_eq hvr (hv.dead_parent hd0)]
          exact hg
        · refine Stored.graft (fun t ht p hp => ?_) (Stored.single fun p hp => ?_) _
          · have hlt : p.1 < s.size := hv.alive_lt _ ((h.shaped.mem_ids hv _).1 (Wood.mem_ids.2 ⟨t, ht, by
              rw [preorder_sk]; exact List.mem_map_of_mem hp⟩))
            show f'.getData _ = _
            rw [h3, if_neg (by omega)]
            exact h.stored t ht p hp
          · rw [Tree.preorder_node] at hp
            simp only [List.flatMap_nil, List.mem_singleton] at hp
            subst hp
            show f'.getData _ = _
            rw [h3, ← h.size, if_pos rfl]

theorem sk_write (x : Nat) (v : T) (t : Tree (Nat × T)) :
    sk (t.map fun p => if p.1 = x then (x, v) else p) = sk t := by
  revert t
  refine Tree.ind fun a ts ih => ?_
  rw [Tree.map_node, sk_node, sk_node, List.map_map]
  congr 1
  · split
    · rename_i e; exact e.symm
    · rfl
  · exact List.map_congr_left ih

theorem Abs.setData (h : Abs r f s) (x : Nat) (v : T) :
    Sim (Ans.ofRes .flag (Forest.setData x v f)) (⟨r.issued, Wood.write x v r.trees⟩, .flag (r.alive x)) := by
  have hm := h.models
  have hv := hm.valid
  have hsh : Shaped (Wood.write x v r.trees) s := by
    have hid : ∀ t : Tree (Nat × T), idOf (t.map fun p => if p.1 = x then (x, v) else p) = idOf t := fun t => by
      rw [← root_sk, sk_write, root_sk]
    have hids : (Wood.write x v r.trees).map idOf = r.trees.map idOf := by
      rw [Wood.write, List.map_map]; exact List.map_congr_left fun t _ => hid t
    refine ⟨fun t ht => ?_, fun y => by rw [hids]; exact h.shaped.roots y, by rw [hids]; exact h.shaped.nodup⟩
    obtain ⟨u, hu, rfl⟩ := List.mem_map.1 ht
    rw [sk_write]; exact h.shaped.tree u hu
  cases hx : s.alive x with
  | true =>
    obtain ⟨f', h1, h2, h3, h4⟩ := setData_models hm hx v
    rw [h1]
    refine ⟨by rw [h.alive, hx]; rfl, s, h2, h.size, hsh, fun t ht p hp => ?_⟩
    obtain ⟨u, hu, rfl⟩ := List.mem_map.1 ht
    rw [Tree.preorder_map] at hp
    obtain ⟨q, hq, rfl⟩ := List.mem_map.1 hp
    show f'.getData _ = _
    rw [h4]
    show (if (if q.1 = x then (x, v) else q).1 = x then _ else _) = _
    by_cases e : q.1 = x
    · simp [e]
    · simp only [e, if_false]; exact h.stored u hu q hq
  | false =>
    have hd : f.getData x = none := by
      have := hm.dataAlive x; rw [hx] at this; simpa using this
    have : Forest.setData x v f = .ok false f := by unfold Forest.setData; rw [hd]
    rw [this]
    refine ⟨by rw [h.alive, hx]; rfl, s, hm, h.size, hsh, fun t ht p hp => ?_⟩
    obtain ⟨u, hu, rfl⟩ := List.mem_map.1 ht
    rw [Tree.preorder_map] at hp
    obtain ⟨q, hq, rfl⟩ := List.mem_map.1 hp
    have := h.stored u hu q hq
    show f.getData (if q.1 = x then (x, v) else q).1 = _
    by_cases e : q.1 = x
    · rw [e, hd] at this; cases this
    · simp only [e, if_false]; exact this

theorem Abs.detach (h : Abs r f s) (x : Nat) :
    Sim (Ans.ofRes (fun _ => .done) (Forest.detach x f)) (r.at_ x fun t => (⟨r.issued, cut x r.trees ++ [t]⟩, .done)) := by
  have hm := h.models
  have hv := hm.valid
  rcases h.find x with ⟨hx, e⟩ | ⟨hx, u, e, hu, ht⟩
  · rw [at_dead e]
    obtain ⟨msg, h1⟩ := forest_detach_dead hm hx
    rw [h1]; exact h.sim _
  · rw [at_alive e]
    obtain ⟨f', h1, h2, h3⟩ := forest_detach_models hm hx
    rw [h1]
    refine ⟨rfl, _, h2, h.size, h.shaped.detach hv hx hu ht, ?_⟩
    exact ((h.stored.cut x).append (Stored.single (h.stored.find e))).data h3

theorem Abs.insert (h : Abs r f s) (x : Nat) (dest : InsertAs) {y : Plain T × Ans T}
    (hy : r.insert x dest.place = some y) : Sim (Ans.ofRes .ofExcept (Forest.insert x dest f)) y := by
  have hm := h.models
  have hv := hm.valid
  unfold Plain.insert at hy
  split at hy
  · rename_i e
    cases hy
    rw [forest_insert_unorderable f (by cases dest <;> simpa [InsertAs.place] using e)]
    exact h.sim _
  rename_i hne
  have hne' : dest ≠ .previousSiblingOf x ∧ dest ≠ .nextSiblingOf x := by
    cases dest <;> simpa [InsertAs.place] using hne
  have hdead : (s.alive x = false ∨ s.alive dest.place.anchor = false) →
      Sim (Ans.ofRes Ans.ofExcept (Forest.insert x dest f)) (r, .panicked) := by
    intro hd
    obtain ⟨msg, h1⟩ := forest_insert_dead hm hd hne'
    rw [h1]; exact h.sim _
  rcases h.find x with ⟨hx, e⟩ | ⟨hx, u, e, hu, ht⟩
  · rw [e] at hy
    cases hy
    exact hdead (.inl hx)
  rcases h.find dest.place.anchor with ⟨ha, e'⟩ | ⟨ha, v, e', -, -⟩
  · rw [e, e'] at hy
    cases hy
    exact hdead (.inr ha)
  rw [e, e', h.placeParent] at hy
  cases hP : s.placeParent dest.place with
  | none =>
    rw [hP] at hy
    cases hy
    rw [forest_insert_rootSibling hm hx ha hne' hP]
    exact h.sim _
  | some P =>
    rw [hP] at hy
    simp only at hy
    have hin : P ∈ ids [u] ↔ AncOrSelf s.parent x P := by
      rw [Wood.mem_ids]
      have := Tree.mem_preorder_iff hv ht P
      rw [root_sk, hu] at this
      simpa using this
    split at hy
    · rename_i hl
      cases hy
      rw [forest_insert_loop hm hx ha hne' hP (hin.1 hl)]
      exact h.sim _
    rename_i hl
    have hcyc : ¬ AncOrSelf s.parent x P := fun hc => hl (hin.2 hc)
    split at hy
    · split at hy
      · rename_i hc
        cases hy
        rw [h.kids] at hc
        have hd : dest = .firstChildOf P := by
          obtain ⟨hc, _⟩ := hc
          cases dest <;> simp [InsertAs.place] at hc ⊢
          exact hc
        rw [hd, C08_insert_only_child_first_partial hm hc.2]
        exact h.sim _
      · cases hy
    · rename_i hat
      cases hy
      have hat' : ¬ s.At x dest.place := fun hc => hat ((h.there x dest.place).2 hc)
      have hne2 : ∀ a, dest.place = .before a ∨ dest.place = .after a → x ≠ a := by
        rintro a hc rfl
        exact hne hc
      obtain ⟨f', h1, h2, h3⟩ := forest_insert_models hm hx ha hne2 hP hcyc hat'
      rw [h1]
      refine ⟨rfl, s.move x dest.place, h2, ?_, ?_, ?_⟩
      · show _ = r.issued
        rw [← h.size]; unfold Shape.move; rw [hP]; rfl
      · have hd := h.shaped.detach hv hx hu ht
        have hpar : (s.detach x).placeParent dest.place = some P := by
          rw [← hP]
          generalize dest.place = pl at *
          cases pl with
          | firstChildOf a => rfl
          | lastChildOf a => rfl
          | before a =>
            have := hne2 a (.inl rfl)
            simp [Shape.placeParent, Shape.detach, Shape.upd, Ne.symm this]
          | after a =>
            have := hne2 a (.inr rfl)
            simp [Shape.placeParent, Shape.detach, Shape.upd, Ne.symm this]
        have hPu : P ∉ (sk u).preorder := by
          rw [Tree.mem_preorder_iff hv ht, root_sk, hu]; exact hcyc
        have hg := hd.graft (hv.detach x) hpar hPu
        rw [hu] at hg
        unfold Shape.move
        rw [hP]
        exact hg
      · exact ((h.stored.cut x).graft (Stored.single (h.stored.find e)) _).data h3

theorem Abs.detachSingle (h : Abs r f s) (x : Nat) :
    Sim (Ans.ofRes .ofExcept (Forest.detachSingle x f)) (r.detachSingle x) := by
  have hm := h.models
  have hv := hm.valid
  unfold Plain.detachSingle
  rcases h.find x with ⟨hx, e⟩ | ⟨hx, u, e, hu, ht⟩
  · rw [at_dead e]
    obtain ⟨msg, h1⟩ := forest_detachSingle_dead hm hx
    rw [h1]; exact h.sim _
  rw [at_alive e]
  have hst := h.stored.find e
  have hurt : f.getData u.root.1 = some u.root.2 := hst _ (Tree.root_mem_preorder u)
  have hsu : Stored [(.node u.root [] : Tree (Nat × T))] f := Stored.single fun p hp => by
    rw [Tree.preorder_node] at hp
    simp only [List.flatMap_nil, List.mem_singleton] at hp
    subst hp; exact hurt
  rw [h.parent]
  cases hp : s.parent x with
  | some p =>
    obtain ⟨f', h1, h2, h3⟩ := forest_detachSingle_child hm hp
    rw [h1]
    have hroot : u.root = (x, u.root.2) := by
      rw [← hu]; rfl
    refine ⟨rfl, _, h2, h.size, ?_, ((h.stored.dissolve x).append hsu).data h3⟩
    show Shaped (Wood.dissolve x r.trees ++ [.node u.root []]) _
    rw [hroot]
    exact h.shaped.dissolve hv hp _
  | none =>
    simp only
    obtain ⟨a, ts⟩ := u
    have hk : s.kids x = ts.map idOf := by
      rw [isTree_sk_node] at ht
      rw [← hu]; exact ht.1
    have hsh := h.shaped.detach hv hx hu ht
    rw [detach_root_eq hv hp] at hsh
    rcases ts with _ | ⟨c, _ | ⟨c', ts⟩⟩
    · rw [if_pos (by simp [Tree.subs])]
      rw [forest_detachSingle_root_nil hm hx hp hk]
      exact ⟨rfl, s, hm, h.size, hsh, (h.stored.cut x).append hsu⟩
    · rw [if_pos (by simp [Tree.subs])]
      obtain ⟨f', h1, h2, h3⟩ := forest_detachSingle_root_one hm hx hp hk
      rw [h1]
      refine ⟨rfl, _, h2, h.size, hsh.free hv, ?_⟩
      have : Stored [c] f := (Stored.single hst).subs
      exact ((h.stored.cut x).append (hsu.append this)).data h3
    · rw [if_neg (by simp [Tree.subs])]
      rw [forest_detachSingle_root_many hm hx hp (by rw [hk]; simp)]
      exact h.sim _

theorem feed_record_ok {ι : Type} (limit : Option Nat) : ∀ (l acc : List ι),
    (∀ k, limit = some k → k < acc.length ∨ acc.length + l.length ≤ k) → feed (Req.record limit) acc l = (acc ++ l, none) := by
  intro l
  induction l with
  | nil => intro acc _; simp [feed]
  | cons a l ih =>
    intro acc h
    have h1 : limit ≠ some acc.length := fun e => by have := h _ e; simp at this
    simp only [feed, Req.record, if_neg h1]
    rw [ih (acc ++ [a]) fun k hk => by have := h k hk; simp only [List.length_append, List.length_cons, List.length_nil] at this ⊢; omega]
    simp

theorem feed_record_hit {ι : Type} (limit : Option Nat) : ∀ (l acc : List ι) (j : Nat), limit = some (acc.length + j) →
    j < l.length → feed (Req.record limit) acc l = (acc ++ l.take j, some j) := by
  intro l
  induction l with
  | nil => intro acc j _ h; simp at h
  | cons a l ih =>
    intro acc j hl h
    cases j with
    | zero => simp [feed, Req.record, hl]
    | succ j =>
      have h1 : limit ≠ some acc.length := by rw [hl]; simp
      simp only [feed, Req.record, if_neg h1]
      rw [ih (acc ++ [a]) j (by rw [hl]; simp; omega) (by simpa using h)]
      simp

theorem pairHook_record (limit : Option Nat) :
    pairHook (fun l a b => Req.record limit l (a, b)) = Req.record limit := rfl

theorem length_postorder {α : Type} : ∀ t : Tree α, t.postorder.length = t.count := by
  refine Tree.ind fun a ts ih => ?_
  rw [← Tree.length_preorder, Tree.postorder_node, Tree.preorder_node]
  simp only [List.length_append, List.length_flatMap, List.length_cons, List.length_nil, Nat.zero_add, Nat.add_right_cancel_iff]
  congr 1
  exact List.map_congr_left fun t ht => by rw [ih t ht, Tree.length_preorder]

theorem postorder_sub {α : Type} : ∀ (t : Tree α) (y : α), y ∈ t.postorder → y ∈ t.preorder := by
  refine Tree.ind fun a ts ih y hy => ?_
  rw [Tree.postorder_node] at hy
  rw [Tree.preorder_node]
  rcases List.mem_append.1 hy with hy | hy
  · obtain ⟨t, ht, hy⟩ := List.mem_flatMap.1 hy
    exact List.mem_cons_of_mem _ (List.mem_flatMap.2 ⟨t, ht, ih t ht y hy⟩)
  · rw [List.mem_singleton] at hy; simp [hy]

theorem filterMap_stored : ∀ l : List (Nat × T), (∀ p ∈ l, f.getData p.1 = some p.2) →
    (l.map (·.1)).filterMap f.getData = l.map (·.2) := by
  intro l
  induction l with
  | nil => intro _; rfl
  | cons a l ih =>
    intro h
    rw [List.map_cons, List.filterMap_cons, h a (by simp)]
    simp only [List.map_cons]
    rw [ih fun p hp => h p (by simp [hp])]

theorem removeWith_dead' (h : Abs r f s) {x : Nat} (hx : s.alive x = false) {S : Type}
    (close : Nat → M (Forest T × S) Unit) (σ : S) : Forest.removeWith close x (f, σ) = .ok () (f, σ) := by
  simp only [Forest.removeWith, M.run_bind, M.read, h.models.hierAlive, hx]; rfl

theorem stored_postorder {u : Tree (Nat × T)} (hst : ∀ p ∈ u.preorder, f.getData p.1 = some p.2) :
    (sk u).postorder.filterMap f.getData = u.postorder.map (·.2) := by
  rw [sk, Tree.postorder_map]
  exact filterMap_stored _ fun p hp => hst p (postorder_sub u p hp)

theorem Abs.removed (h : Abs r f s) {x : Nat} (hx : s.alive x = true) {u : Tree (Nat × T)} (hu : idOf u = x)
    (ht : Tree.IsTree s.kids (sk u)) {f' : Forest T} (h2 : Models f' (s.kill fun z => decide (z ∈ (sk u).preorder)))
    (h3 : ∀ y, f'.getData y = if y ∈ (sk u).preorder then none else f.getData y) :
    Abs ⟨r.issued, cut x r.trees⟩ f' (s.kill fun z => decide (z ∈ (sk u).preorder)) := by
  have hv := h.models.valid
  refine ⟨h2, h.size, h.shaped.remove hv hx hu ht, fun t hm p hp => ?_⟩
  rw [h3, if_neg]
  · exact h.stored.cut x t hm p hp
  · exact h.shaped.cut_disjoint hv hx hu ht t hm _ (by rw [preorder_sk]; exact List.mem_map_of_mem hp)

theorem Abs.remove (h : Abs r f s) (x : Nat) :
    Sim (Ans.ofResS (fun _ c => .dropped c) (Forest.removeHooked (Req.record none) x (f, []))) (r.remove x) := by
  have hm := h.models
  unfold Plain.remove
  rcases h.find x with ⟨hx, e⟩ | ⟨hx, u, e, hu, ht⟩
  · rw [e, Forest.removeHooked, removeWith_dead' h hx]
    exact h.sim _
  · rw [e]
    have hr : (sk u).root = x := by rw [root_sk, hu]
    obtain ⟨f1, h1⟩ := removeHooked_spec (Req.record none) hm ht (by rw [hr]; exact hx) ([] : List T)
    rw [stored_postorder (h.stored.find e), feed_record_ok _ _ _ (by simp)] at h1
    simp only [hr, List.nil_append] at h1
    rw [h1.1]
    exact ⟨rfl, _, h.removed hx hu ht h1.2.1 h1.2.2⟩

theorem Abs.removeForce (h : Abs r f s) (x : Nat) (limit : Option Nat) {y : Plain T × Ans T}
    (hy : r.removeForce x limit = some y) :
    Sim (Ans.ofResS (fun _ c => .dropped c) (Forest.removeHooked (Req.record limit) x (f, []))) y := by
  have hm := h.models
  unfold Plain.removeForce at hy
  rcases h.find x with ⟨hx, e⟩ | ⟨hx, u, e, hu, ht⟩
  · rw [e] at hy
    have := h.remove x
    rw [Forest.removeHooked, removeWith_dead' h hx] at this ⊢
    simp only [Option.some.injEq] at hy
    rw [← hy]; exact this
  · rw [e] at hy
    have hr : (sk u).root = x := by rw [root_sk, hu]
    have hst := h.stored.find e
    obtain ⟨f1, h1⟩ := removeHooked_spec (Req.record limit) hm ht (by rw [hr]; exact hx) ([] : List T)
    rw [stored_postorder hst] at h1
    have hlen : (u.postorder.map (·.2)).length = u.count := by
      rw [List.length_map, length_postorder]
    have hgood : (∀ k, limit = some k → u.count ≤ k) →
        Sim (Ans.ofResS (fun _ c => .dropped c) (Forest.removeHooked (Req.record limit) x (f, []))) (r.remove x) := by
      intro hl
      rw [feed_record_ok _ _ _ (fun k hk => .inr (by rw [hlen]; simpa using hl k hk))] at h1
      simp only [hr, List.nil_append] at h1
      rw [h1.1]
      unfold Plain.remove
      rw [e]
      exact ⟨rfl, _, h.removed hx hu ht h1.2.1 h1.2.2⟩
    cases limit with
    | none =>
      cases hy
      exact hgood (by simp)
    | some k =>
      simp only at hy
      split at hy
      · cases hy
      · rename_i hk
        split at hy
        · rename_i hk'
          cases hy
          rw [feed_record_hit _ _ _ k (by simp) (by rw [hlen]; omega)] at h1
          obtain ⟨h2, ⟨f0, hm0, hdat, hR⟩, h4⟩ := h1
          have hall : (sk u).postorder.take (k + 1) = (sk u).postorder := by
            apply List.take_of_length_le
            rw [length_postorder, sk, Tree.count_map]; omega
          rw [hall] at hR h4
          have hm1 := hR.models hm0 (Tree.isTree_detach hm.valid ht) (Shape.detach_parent_self _)
          rw [Shape.detach_kill hm.valid (x := (sk u).root) (by simp [Tree.root_mem_preorder])] at hm1
          rw [hr] at h2
          rw [h2]
          exact ⟨rfl, _, h.removed hx hu ht hm1 (fun y => by
            show f1.getData y = _
            rw [h4]; simp only [Tree.mem_postorder])⟩
        · cases hy
          exact hgood (fun k' hk' => by cases hk'; omega)

theorem Abs.drop (h : Abs r f s) (x : Nat) :
    Sim (Ans.ofRes (fun _ => .done) (Forest.remove x f)) ((r.remove x).1, .done) := by
  have hm := h.models
  unfold Plain.remove Forest.remove
  rcases h.find x with ⟨hx, e⟩ | ⟨hx, u, e, hu, ht⟩
  · rw [e, Forest.removeHooked, removeWith_dead' h hx]
    exact h.sim _
  · rw [e]
    have hr : (sk u).root = x := by rw [root_sk, hu]
    obtain ⟨f1, h1⟩ := removeHooked_spec (S := Unit) (fun s _ => .ok s) hm ht (by rw [hr]; exact hx) ()
    have hf : ∀ l : List T, feed (fun (s : Unit) _ => (.ok s : Except Unit Unit)) () l = ((), none) := by
      intro l
      induction l with
      | nil => rfl
      | cons a l ih => simp only [feed, ih]; rfl
    rw [hf, hr] at h1
    simp only at h1
    rw [h1.1]
    exact ⟨rfl, _, h.removed hx hu ht h1.2.1 h1.2.2⟩

theorem Abs.removeSafe (h : Abs r f s) (x : Nat) (limit : Option Nat) :
    Sim (Ans.ofResS (fun _ c => .dropped c) (Forest.removeHookedPanicSafe (Req.record limit) x (f, [])))
      (r.removeSafe x limit) := by
  have hm := h.models
  have hv := hm.valid
  unfold Plain.removeSafe
  rcases h.find x with ⟨hx, e⟩ | ⟨hx, u, e, hu, ht⟩
  · rw [e, Forest.removeHookedPanicSafe, removeWith_dead' h hx]
    simp only [Plain.remove, e]
    exact h.sim _
  · rw [e]
    have hr : (sk u).root = x := by rw [root_sk, hu]
    have hst := h.stored.find e
    obtain ⟨f1, h1⟩ := removeHookedPanicSafe_spec (Req.record limit) hm ht (by rw [hr]; exact hx) ([] : List T)
    rw [stored_postorder hst] at h1
    have hlen : (u.postorder.map (·.2)).length = u.count := by
      rw [List.length_map, length_postorder]
    have hgood : (∀ k, limit = some k → u.count ≤ k) →
        Sim (Ans.ofResS (fun _ c => .dropped c) (Forest.removeHookedPanicSafe (Req.record limit) x (f, []))) (r.remove x) := by
      intro hl
      rw [feed_record_ok _ _ _ (fun k hk => .inr (by rw [hlen]; simpa using hl k hk))] at h1
      simp only [hr, List.nil_append] at h1
      rw [h1.1]
      unfold Plain.remove
      rw [e]
      exact ⟨rfl, _, h.removed hx hu ht h1.2.1 h1.2.2⟩
    cases limit with
    | none => exact hgood (by simp)
    | some k =>
      simp only
      split
      · rename_i hk
        rw [feed_record_hit _ _ _ k (by simp) (by rw [hlen]; exact hk)] at h1
        simp only [hr, List.nil_append] at h1
        rw [h1.1]
        have hD : (sk u).postorder.take (k + 1) = (u.postorder.take (k + 1)).map (·.1) := by
          rw [sk, Tree.postorder_map, List.map_take]
        rw [hD] at h1
        have hd := h.shaped.detach hv hx hu ht
        refine ⟨rfl, _, h1.2.1, h.size, hd.strip _, fun t hm p hp => ?_⟩
        show f1.getData _ = _
        rw [h1.2.2, if_neg (strip_free t hm p hp)]
        exact ((h.stored.cut x).append (Stored.single hst)).strip _ t hm p hp
      · rename_i hk
        exact hgood (fun k' hk' => by cases hk'; omega)

mutual
theorem plan_panic : ∀ (c : NestCall T) (b : Nat) (e : Fail), (NestCall.plan b c).2 = .error e → ∃ m, e = .panic m
  | .addChild d, b, e, h => by
    rw [NestCall.plan] at h
    split at h
    · cases h; exact ⟨_, rfl⟩
    · cases h
  | .createTree d cs, b, e, h => by
    rw [NestCall.plan] at h
    split at h
    · cases h; exact ⟨_, rfl⟩
    · exact planL_panic cs _ e h
  | .boom, b, e, h => by
    rw [NestCall.plan] at h
    cases h; exact ⟨_, rfl⟩
theorem planL_panic : ∀ (cs : List (NestCall T)) (b : Nat) (e : Fail), (NestCall.planL b cs).2 = .error e → ∃ m, e = .panic m
  | [], b, e, h => by rw [NestCall.planL] at h; cases h
  | c :: cs, b, e, h => by
    rw [NestCall.planL] at h
    have hc := plan_panic c b
    generalize NestCall.plan b c = q at h hc
    obtain ⟨ts, e' | b'⟩ := q
    · cases h; exact hc _ rfl
    · exact planL_panic cs b' e h
end

theorem Abs.nest (h : Abs r f s) (cap : Nat) (d : T) (calls : List (NestCall T)) :
    Sim (Ans.ofRes .id (nestBuild cap d calls f)) (r.nest cap d calls) := by
  unfold Plain.nest
  rcases nestBuild_spec h.models cap d calls with ⟨hc, e⟩ | ⟨hc, g, s', hp, e⟩
  · rw [if_pos (by rw [← h.size]; exact hc), e]
    exact h.sim _
  · rw [if_neg (by rw [← h.size]; omega), e]
    rw [h.size] at hp ⊢
    have ha := h.planted hp
    cases hq : (NestCall.planL (cap - r.issued - 1) calls).2 with
    | ok b => exact ⟨by simp only [hq]; rfl, _, ha⟩
    | error e' =>
      refine ⟨?_, _, ha⟩
      simp only [hq]
      have := planL_panic calls _ _ hq
      obtain ⟨m, rfl⟩ := this
      rfl

end Plain
end Treena
