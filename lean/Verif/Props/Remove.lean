import Verif.Proof.Remove
import Verif.Proof.History
import Verif.Proof.CreateInsert
import Verif.Spec.Remove
import Verif.Props.Sample
import Verif.Props.SampleRun
/-!
# Properties of removal (C15 – C18, C40)
-/
set_option autoImplicit false

namespace Treena
open Shape
variable {T S : Type} {f : Forest T} {s : Shape}

theorem map_some_inj : ∀ {l l' : List T}, l.map some = l'.map some → l = l'
  | [], [], _ => rfl
  | [], _ :: _, h => by cases h
  | _ :: _, [], h => by cases h
  | a :: l, b :: l', h => by
    simp only [List.map_cons, List.cons.injEq, Option.some.injEq] at h
    rw [h.1, map_some_inj h.2]

namespace Tree

/-- Stopping a postorder walk in the middle: some node not yet visited has its first child visited. -/
theorem cut_postorder {kids : Nat → List Nat} : ∀ (t : Tree Nat) (m : Nat), IsTree kids t → 0 < m →
    m < t.count → ∃ p c, p ∈ t.postorder.drop m ∧ c ∈ t.postorder.take m ∧ (kids p).head? = some c
  | .node a [], m, ht, h0, h1 => by simp [count, countL] at h1; omega
  | .node a (t :: ts), m, ht, h0, h1 => by
    have hl : t.postorder.length = t.count := by rw [(postorder_perm t).length_eq, length_preorder]
    have hls : (postorderL ts).length = countL ts := by
      rw [(postorderL_perm ts).length_eq, length_preorderL]
    by_cases hm : m < t.count
    · obtain ⟨p, c, h2, h3, h4⟩ := cut_postorder t m ht.2.1 h0 hm
      refine ⟨p, c, ?_, ?_, h4⟩
      · simp only [postorder, postorderL, List.append_assoc]
        rw [List.drop_append_of_le_length (by omega)]
        exact List.mem_append_left _ h2
      · simp only [postorder, postorderL, List.append_assoc]
        rw [List.take_append_of_le_length (by omega)]
        exact h3
    · refine ⟨a, t.root, ?_, ?_, by rw [ht.1]; rfl⟩
      · simp only [count, countL] at h1
        simp only [postorder, postorderL]
        rw [List.drop_append_of_le_length (by simp [hl, hls]; omega)]
        simp
      · simp only [postorder, postorderL, List.append_assoc]
        rw [List.take_append]
        refine List.mem_append_left _ ?_
        rw [List.take_of_length_le (by omega), mem_postorder]
        exact root_mem_preorder t
end Tree

theorem feed_never {ι : Type} {hook : S → ι → Except S S} (h : NeverPanics hook) : ∀ (l : List ι) (σ : S),
    ∃ σ', feed hook σ l = (σ', none)
  | [], σ => ⟨σ, rfl⟩
  | i :: l, σ => by
    obtain ⟨σ1, h1⟩ := h σ i
    obtain ⟨σ2, h2⟩ := feed_never h l σ1
    exact ⟨σ2, by simp [feed, h1, h2]⟩

theorem feed_bound {ι : Type} {hook : S → ι → Except S S} : ∀ (l : List ι) (σ σ' : S) (k : Nat),
    feed hook σ l = (σ', some k) → k < l.length
  | [], σ, σ', k, h => by simp [feed] at h
  | i :: l, σ, σ', k, h => by
    simp only [feed] at h
    cases hi : hook σ i with
    | error s1 => rw [hi] at h; simp only [Prod.mk.injEq, Option.some.injEq] at h; simp; omega
    | ok s1 =>
      rw [hi] at h
      simp only [Prod.mk.injEq, Option.map_eq_some_iff] at h
      obtain ⟨_, k', hk', rfl⟩ := h
      have := feed_bound l s1 (feed hook s1 l).1 k' (by rw [← hk'])
      simp; omega

theorem kill_removed (hm : Models f s) {t : Tree Nat} (ht : Tree.IsTree s.kids t)
    (hx : s.alive t.root = true) {f' : Forest T}
    (h : Models f' (s.kill fun z => decide (z ∈ t.preorder)))
    (hd : ∀ y, f'.getData y = if y ∈ t.preorder then none else f.getData y) :
    Removed f s t.root f' (s.kill fun z => decide (z ∈ t.preorder)) := by
  have hmem := Tree.mem_preorder_iff hm.valid ht
  refine Removed.mk h h.describes rfl (fun y => ?_) (fun y hy => ?_) (fun y hy => ?_) (fun y hy => ?_)
  · simp [Shape.kill, hmem]
  · simp [Shape.kill, hmem, hy]
  · simp only [Shape.kill, hmem, hy, decide_false, Bool.false_eq_true, if_false]
    refine List.filter_congr fun c hc => ?_
    have hp := (hm.valid.mem_kids c y).1 hc
    have : AncOrSelf s.parent t.root c ↔ c = t.root := by
      constructor
      · intro h
        cases h with
        | refl => rfl
        | step h1 h2 => rw [hp] at h1; cases h1; exact absurd h2 hy
      · rintro rfl; exact .refl
    simp [hmem, this]
  · rw [hd]; simp [hmem, hy]

/-- **C15**.  On a live node, `remove`, and `remove_hooked` / `remove_hooked_panic_safe` with a hook that
does not panic, return normally and remove exactly the node and its descendants. -/
theorem C15_remove (hm : Models f s) {x : Nat} (hx : s.alive x = true) :
    (∃ f' s', Forest.remove x f = .ok () f' ∧ Removed f s x f' s') ∧
    (∀ (S : Type) (hook : Forest.Hook S T) (σ : S), NeverPanics hook →
      (∃ f' s' σ', Forest.removeHooked hook x (f, σ) = .ok () (f', σ') ∧ Removed f s x f' s') ∧
      (∃ f' s' σ', Forest.removeHookedPanicSafe hook x (f, σ) = .ok () (f', σ') ∧ Removed f s x f' s')) := by
  obtain ⟨t, ht, rfl⟩ := Tree.exists_tree hm.valid hx
  have key : ∀ (S : Type) (hook : Forest.Hook S T) (σ : S), NeverPanics hook →
      (∃ f' s' σ', Forest.removeHooked hook t.root (f, σ) = .ok () (f', σ') ∧ Removed f s t.root f' s') ∧
      (∃ f' s' σ', Forest.removeHookedPanicSafe hook t.root (f, σ) = .ok () (f', σ') ∧
        Removed f s t.root f' s') := by
    intro S hook σ hn
    obtain ⟨σ', hf⟩ := feed_never hn (t.postorder.filterMap f.getData) σ
    obtain ⟨f1, h1⟩ := removeHooked_spec hook hm ht hx σ
    obtain ⟨f2, h2⟩ := removeHookedPanicSafe_spec hook hm ht hx σ
    rw [hf] at h1 h2
    exact ⟨⟨f1, _, σ', h1.1, kill_removed hm ht hx h1.2.1 h1.2.2⟩,
      ⟨f2, _, σ', h2.1, kill_removed hm ht hx h2.2.1 h2.2.2⟩⟩
  refine ⟨?_, key⟩
  obtain ⟨⟨f', s', σ', h1, h2⟩, _⟩ := key Unit (fun s _ => .ok s) () (fun σ _ => ⟨σ, rfl⟩)
  refine ⟨f', s', ?_, h2⟩
  unfold Forest.remove; rw [h1]

/-- Removing the subtree `2 [4, 5]` of the sample: 4 is dead, 1 and 3 become neighbours. -/
example : ∃ f', Forest.remove 2 Sample.built = .ok () f' ∧ f'.isAlive 4 = false ∧
    f'.nextSiblingId 1 = .ok (some 3) ∧ f'.getData 3 = some 13 := by
  obtain ⟨f', s', h, hr⟩ := (C15_remove Sample.models (x := 2) rfl).1
  have n1 : ¬ AncOrSelf Sample.shape.parent 2 1 := by
    intro h; cases h with | step h1 h2 => cases h1; cases h2 with | step h1 _ => cases h1
  have n3 : ¬ AncOrSelf Sample.shape.parent 2 3 := by
    intro h; cases h with | step h1 h2 => cases h1; cases h2 with | step h1 _ => cases h1
  have n0 : ¬ AncOrSelf Sample.shape.parent 2 0 := by
    intro h; cases h with | step h1 _ => cases h1
  refine ⟨f', h, ?_, ?_, ?_⟩
  · rw [hr.describes.alive]
    cases e : s'.alive 4 with
    | false => rfl
    | true => exact absurd (.step (p := 2) rfl .refl) ((hr.alive 4).1 e).2
  · rw [hr.describes.next 1 ((hr.alive 1).2 ⟨rfl, n1⟩)]
    have hp : s'.parent 1 = some 0 := hr.parent 1 n1
    have hk : s'.kids 0 = [1, 3] := by rw [hr.kids 0 n0]; decide
    simp [Shape.next, Shape.sibs, hp, hk, after]
  · rw [hr.data 3 n3]; decide

theorem data_list (hm : Models f s) : ∀ (l : List Nat), (∀ y ∈ l, s.alive y = true) →
    l.map f.getData = (l.filterMap f.getData).map some
  | [], _ => rfl
  | y :: l, h => by
    obtain ⟨d, hd⟩ := data_some hm (h y (by simp))
    simp [hd, data_list hm l (fun z hz => h z (by simp [hz]))]

/-- **C16**.  Let `t` be the tree seen from the live node `x`, and `ds` the data of its nodes in postorder.
`remove_hooked` and `remove_hooked_panic_safe` call the hook on the elements of `ds`, one after the other,
each once (up to the first panic, if any): the captured state of the hook ends up as after those calls,
and the call panics exactly when one of them does. -/
theorem C16_hook_postorder (hm : Models f s) {t : Tree Nat} (ht : Tree.IsTree s.kids t)
    (hx : s.alive t.root = true) (hook : Forest.Hook S T) (σ : S) :
    ∃ ds, t.postorder.map f.getData = ds.map some ∧
      ∃ f1 f2, match feed hook σ ds with
        | (σ', none) => Forest.removeHooked hook t.root (f, σ) = .ok () (f1, σ') ∧
            Forest.removeHookedPanicSafe hook t.root (f, σ) = .ok () (f2, σ')
        | (σ', some _) => Forest.removeHooked hook t.root (f, σ) = .fail (.panic "hook panicked") (f1, σ') ∧
            Forest.removeHookedPanicSafe hook t.root (f, σ) = .fail (.panic "hook panicked") (f2, σ') := by
  refine ⟨t.postorder.filterMap f.getData, data_list hm _ fun y hy => ?_, ?_⟩
  · exact Tree.mem_alive hm.valid ht hx (Tree.mem_postorder.1 hy)
  obtain ⟨f1, h1⟩ := removeHooked_spec hook hm ht hx σ
  obtain ⟨f2, h2⟩ := removeHookedPanicSafe_spec hook hm ht hx σ
  refine ⟨f1, f2, ?_⟩
  cases hf : feed hook σ (t.postorder.filterMap f.getData) with
  | mk σ' o =>
    rw [hf] at h1 h2
    cases o with
    | none => exact ⟨h1.1, h2.1⟩
    | some k => exact ⟨h1.1, h2.1⟩

theorem feed_record (l acc : List T) :
    feed (fun (acc : List T) d => (.ok (acc ++ [d]) : Except (List T) (List T))) acc l = (acc ++ l, none) := by
  induction l generalizing acc with
  | nil => simp [feed]
  | cons d l ih => simp [feed, ih]

/-- C16 for a hook that records its arguments: the record is the postorder data sequence. -/
theorem C16_recorded (hm : Models f s) {t : Tree Nat} (ht : Tree.IsTree s.kids t)
    (hx : s.alive t.root = true) :
    ∃ ds, t.postorder.map f.getData = ds.map some ∧ ∃ f1 f2,
      Forest.removeHooked (fun acc d => .ok (acc ++ [d])) t.root (f, []) = .ok () (f1, ds) ∧
      Forest.removeHookedPanicSafe (fun acc d => .ok (acc ++ [d])) t.root (f, []) = .ok () (f2, ds) := by
  obtain ⟨ds, h1, f1, f2, h2⟩ := C16_hook_postorder hm ht hx (fun acc d => .ok (acc ++ [d])) []
  rw [feed_record] at h2
  exact ⟨ds, h1, f1, f2, h2⟩

example : ∃ f', Forest.removeHooked (fun acc d => .ok (acc ++ [d])) 0 (Sample.built, []) =
    .ok () (f', [11, 14, 15, 12, 13, 10]) := by
  obtain ⟨ds, h1, f1, _, h2, _⟩ := C16_recorded Sample.models Sample.isTree rfl
  have : ds = [11, 14, 15, 12, 13, 10] := by
    have e : Sample.tree.postorder.map Sample.built.getData = [11, 14, 15, 12, 13, 10].map some := by decide
    rw [e] at h1
    exact (map_some_inj h1).symm
  rw [this] at h2
  exact ⟨f1, h2⟩

theorem kill_partly (hm : Models f s) {x : Nat} {D : List Nat} {f' : Forest T}
    (h : Models f' ((s.detach x).kill fun z => decide (z ∈ D)))
    (hd : ∀ y, f'.getData y = if y ∈ D then none else f.getData y) :
    PartlyRemoved f s x D f' ((s.detach x).kill fun z => decide (z ∈ D)) := by
  refine PartlyRemoved.mk h h.describes rfl (fun y => ?_) (fun y hy => ?_) (fun y hy => ?_) (fun y hy => ?_)
  · simp [Shape.kill, Shape.detach]
  · simp [Shape.kill, Shape.detach, hy, upd]
  · simp only [Shape.kill, Shape.detach, hy, decide_false, Bool.false_eq_true, if_false]
    rw [(hm.valid.kids_nodup y).erase_eq_filter, List.filter_filter]
    refine List.filter_congr fun c _ => ?_
    simp only [bne, ne_eq, decide_not, Bool.and_comm, Bool.decide_and]
    rfl
  · rw [hd]; simp [hy]

/-- **C17**.  If the hook given to `remove_hooked_panic_safe` panics, at its `k`-th call (`k ≥ 1`), then the
forest is consistent; the dead nodes are the first `k` nodes of the postorder, `x` has been cut off from its
parent, and nothing else has changed. -/
theorem C17_panic_safe (hm : Models f s) {t : Tree Nat} (ht : Tree.IsTree s.kids t)
    (hx : s.alive t.root = true) (hook : Forest.Hook S T) (σ σ' : S) (k : Nat) {ds : List T}
    (hds : t.postorder.map f.getData = ds.map some) (hpanic : feed hook σ ds = (σ', some k)) :
    k < t.count ∧ ∃ f' s', Forest.removeHookedPanicSafe hook t.root (f, σ) =
        .fail (.panic "hook panicked") (f', σ') ∧
      PartlyRemoved f s t.root (t.postorder.take (k + 1)) f' s' := by
  have hds' : t.postorder.filterMap f.getData = ds := by
    have := data_list hm t.postorder fun y hy => Tree.mem_alive hm.valid ht hx (Tree.mem_postorder.1 hy)
    rw [hds] at this
    exact (map_some_inj this).symm
  constructor
  · have h1 := feed_bound _ _ _ _ hpanic
    have h2 := congrArg List.length hds
    have h3 : t.postorder.length = t.count := by
      rw [← Tree.length_preorder]
      exact (List.Perm.length_eq (Tree.postorder_perm t))
    simp at h2; omega
  · obtain ⟨f', h⟩ := removeHookedPanicSafe_spec hook hm ht hx σ
    rw [hds', hpanic] at h
    exact ⟨f', _, h.1, kill_partly hm h.2.1 h.2.2⟩

/-- The sample, the hook panicking at its third call: 1, 4, 5 are dead; 0 now has the children 2 and 3. -/
example : ∃ f', Forest.removeHookedPanicSafe (fun n (_ : Nat) => if n = 2 then .error n else .ok (n + 1)) 0
      (Sample.built, 0) = .fail (.panic "hook panicked") (f', 2) ∧
    f'.isAlive 5 = false ∧ f'.firstChildId 0 = .ok (some 2) ∧ f'.firstChildId 2 = .ok none := by
  obtain ⟨_, f', s', h, hr⟩ := C17_panic_safe Sample.models Sample.isTree rfl
    (fun n (_ : Nat) => if n = 2 then .error n else .ok (n + 1)) 0 2 2 (ds := [11, 14, 15, 12, 13, 10])
    (by decide) (by decide)
  have hD : Sample.tree.postorder.take (2 + 1) = [1, 4, 5] := by decide
  rw [hD] at hr
  refine ⟨f', h, ?_, ?_, ?_⟩
  · rw [hr.describes.alive]
    cases e : s'.alive 5 with
    | false => rfl
    | true => exact absurd (by simp) ((hr.alive 5).1 e).2
  · rw [hr.describes.first 0 ((hr.alive 0).2 ⟨rfl, by simp⟩), hr.kids 0 (by simp)]; rfl
  · rw [hr.describes.first 2 ((hr.alive 2).2 ⟨rfl, by simp⟩), hr.kids 2 (by simp)]; rfl

/-- **C18**.  With hooks that do not panic, `remove_hooked` and `remove_hooked_panic_safe` give the same
forest and the same final captured state (so, by C16, the same calls), and `remove` gives that forest. -/
theorem C18_removals_agree (hm : Models f s) (x : Nat) (hook : Forest.Hook S T) (σ : S)
    (hn : NeverPanics hook) :
    Forest.removeHookedPanicSafe hook x (f, σ) = Forest.removeHooked hook x (f, σ) ∧
    ∃ f' σ', Forest.removeHooked hook x (f, σ) = .ok () (f', σ') ∧ Forest.remove x f = .ok () f' := by
  cases hx : s.alive x with
  | false =>
    have h := fun {S : Type} (close : Nat → M (Forest T × S) Unit) (σ : S) => removeWith_dead close hm hx σ
    refine ⟨by unfold Forest.removeHookedPanicSafe Forest.removeHooked; rw [h, h], f, σ, ?_, ?_⟩
    · unfold Forest.removeHooked; rw [h]
    · unfold Forest.remove Forest.removeHooked; rw [h]
  | true =>
    obtain ⟨t, ht, rfl⟩ := Tree.exists_tree hm.valid hx
    obtain ⟨f1, h1⟩ := removeHooked_spec hook hm ht hx σ
    obtain ⟨f2, h2⟩ := removeHookedPanicSafe_spec hook hm ht hx σ
    obtain ⟨σ', hf⟩ := feed_never hn (t.postorder.filterMap f.getData) σ
    rw [hf] at h1 h2
    obtain ⟨f3, h3⟩ := removeHooked_spec (S := Unit) (fun s _ => .ok s) hm ht hx ()
    obtain ⟨σ3, hf3⟩ := feed_never (hook := fun (s : Unit) (_ : T) => (.ok s : Except Unit Unit))
      (fun s _ => ⟨s, rfl⟩) (t.postorder.filterMap f.getData) ()
    rw [hf3] at h3
    have e2 : f2 = f1 := forest_ext h2.2.1 h1.2.1 (fun y => by rw [h2.2.2, h1.2.2])
    have e3 : f3 = f1 := forest_ext h3.2.1 h1.2.1 (fun y => by rw [h3.2.2, h1.2.2])
    refine ⟨by rw [h1.1, h2.1, e2], f1, σ', h1.1, ?_⟩
    unfold Forest.remove; rw [h3.1, e3]

/-- **C18**, dead or unknown node, in any coherent state, consistent or not: nothing happens (the
documentation promises a panic). -/
theorem C18_remove_dead_noop (hc : Coherent f) {x : Nat} (hx : f.isAlive x = false) (hook : Forest.Hook S T)
    (σ : S) :
    Forest.remove x f = .ok () f ∧ Forest.removeHooked hook x (f, σ) = .ok () (f, σ) ∧
      Forest.removeHookedPanicSafe hook x (f, σ) = .ok () (f, σ) := by
  have hx' : f.hier.isAlive x = false := by rw [← hc.live]; exact hx
  have h : ∀ {S : Type} (close : Nat → M (Forest T × S) Unit) (σ : S),
      Forest.removeWith close x (f, σ) = .ok () (f, σ) := by
    intro S close σ
    simp only [Forest.removeWith, M.run_bind, M.read, hx']; rfl
  refine ⟨?_, h _ σ, h _ σ⟩
  unfold Forest.remove Forest.removeHooked; rw [h]

example : Forest.remove 7 Sample.built = .ok () Sample.built := by decide

/-- A node is live but the accessor for its first child returns a dead node. -/
def LinksToDead (f : Forest T) : Prop :=
  ∃ p c, f.isAlive p = true ∧ f.firstChildId p = .ok (some c) ∧ f.isAlive c = false

/-- A consistent forest has no links to dead nodes. -/
theorem not_linksToDead (hm : Models f s) : ¬ LinksToDead f := by
  rintro ⟨p, c, hp, hc, hd⟩
  rw [hm.isAlive] at hp
  rw [hm.describes.first p hp] at hc
  rw [hm.isAlive, head?_kid hm.valid (by injection hc)] at hd
  cases hd

/-- **C40**, first half: whenever the hook given to `remove_hooked` panics before its last call, live nodes
with links to dead nodes are left over, and the forest is not consistent any more. -/
theorem C40_remove_hooked_panic_corrupts (hm : Models f s) {t : Tree Nat} (ht : Tree.IsTree s.kids t)
    (hx : s.alive t.root = true) (hook : Forest.Hook S T) (σ σ' : S) (k : Nat) {ds : List T}
    (hds : t.postorder.map f.getData = ds.map some) (hpanic : feed hook σ ds = (σ', some k))
    (hk : k + 1 < t.count) :
    ∃ f', Forest.removeHooked hook t.root (f, σ) = .fail (.panic "hook panicked") (f', σ') ∧
      LinksToDead f' ∧ ¬ Consistent f' := by
  have hds' : t.postorder.filterMap f.getData = ds := by
    have := data_list hm t.postorder fun y hy => Tree.mem_alive hm.valid ht hx (Tree.mem_postorder.1 hy)
    rw [hds] at this
    exact (map_some_inj this).symm
  obtain ⟨f', h⟩ := removeHooked_spec hook hm ht hx σ
  rw [hds', hpanic] at h
  obtain ⟨h1, ⟨f0, hm0, hd0, hR⟩, h2⟩ := h
  have ht0 := Tree.isTree_detach hm.valid ht
  obtain ⟨p, c, hp, hc, hpc⟩ := Tree.cut_postorder t (k + 1) ht0 (by omega) hk
  have hnd : t.postorder.Nodup := (Tree.postorder_perm t).nodup_iff.2 (Tree.preorder_nodup hm.valid t ht)
  have hpn : p ∉ t.postorder.take (k + 1) := by
    intro hp'
    rw [← List.take_append_drop (k + 1) t.postorder] at hnd
    exact (List.nodup_append.1 hnd).2.2 p hp' p hp rfl
  have hpa : s.alive p = true :=
    Tree.mem_alive hm.valid ht hx (Tree.mem_postorder.1 (List.mem_of_mem_drop hp))
  have hL : LinksToDead f' := by
    refine ⟨p, c, ?_, ?_, ?_⟩
    · rw [← getData_isSome_isAlive, h2, if_neg hpn, hm.dataAlive]; exact hpa
    · have hl : f'.hier.live p := by
        unfold Hier.live; rw [hR.get, if_neg hpn]
        exact (hm0.agrees.live_iff hm0.valid p).2 hpa
      have hfc := hm0.describes.first p hpa
      rw [hpc] at hfc
      simp only [Forest.firstChildId, hm0.nbr (x := p) hpa] at hfc
      simp only [Forest.firstChildId, Forest.nbr, Hier.neighbors_live hl, expect_some, hR.get, if_neg hpn]
      exact hfc
    · rw [← getData_isSome_isAlive, h2, if_pos hc]; rfl
  exact ⟨f', h1, hL, fun ⟨s', hm'⟩ => not_linksToDead hm' hL⟩

/-- **C40**, second half: `remove_hooked_panic_safe` leaves a consistent forest (hence no links to dead
nodes) on every consistent forest, for every node, live or not, and every hook, panicking or not. -/
theorem C40_panic_safe_always_consistent (hm : Models f s) (x : Nat) (hook : Forest.Hook S T) (σ : S) :
    Consistent (Forest.removeHookedPanicSafe hook x (f, σ)).state.1 ∧
    ¬ LinksToDead (Forest.removeHookedPanicSafe hook x (f, σ)).state.1 := by
  obtain ⟨s', h⟩ := removeHookedPanicSafe_consistent hook σ x f ⟨s, hm⟩
  exact ⟨⟨s', h⟩, not_linksToDead h⟩

/-- The sample, the hook panicking at its very first call. -/
example : ∃ f', Forest.removeHooked (fun (_ : Unit) (_ : Nat) => .error ()) 0 (Sample.built, ()) =
    .fail (.panic "hook panicked") (f', ()) ∧ LinksToDead f' := by
  obtain ⟨f', h1, h2, _⟩ := C40_remove_hooked_panic_corrupts Sample.models Sample.isTree rfl
    (fun (_ : Unit) (_ : Nat) => .error ()) () () 0 (ds := [11, 14, 15, 12, 13, 10]) (by decide) rfl (by decide)
  exact ⟨f', h1, h2⟩

/-! ### The hypotheses can be met

Each example applies the theorem named in its comment to a concrete forest. -/

section
/-- `C16_hook_postorder`: a hook that panics at the third call. -/
example := C16_hook_postorder Sample.models Sample.isTree rfl (fun (k : Nat) _ => if k = 2 then .error k else .ok (k + 1)) 0

/-- `C18_removals_agree`: a hook that counts. -/
example := C18_removals_agree Sample.models 2 (fun (k : Nat) _ => .ok (k + 1)) 0 (fun k _ => ⟨k + 1, rfl⟩)

/-- `C18_remove_dead_noop`: the removed node 7. -/
example := C18_remove_dead_noop Sample.coherent (x := 7) (by decide) (fun (k : Nat) _ => .ok (k + 1)) 0

/-- `C40_panic_safe_always_consistent`: a hook that panics at the third call. -/
example := C40_panic_safe_always_consistent Sample.models 0 (fun (k : Nat) _ => if k = 2 then .error k else .ok (k + 1)) 0

end

end Treena
