import Verif.Proof.Wreck
import Verif.Proof.Repair
import Verif.Props.Remove
import Verif.Props.Sample
import Verif.Props.SampleRun
/-!
# C87: exactly what `remove_hooked` leaves behind when its hook panics
-/
set_option autoImplicit false

namespace Treena
open Hier
variable {T S S' : Type} {f : Forest T} {s : Shape}

theorem wreck_run (hm : Models f s) {t : Tree Nat} (ht : Tree.IsTree s.kids t) (hx : s.alive t.root = true) (hook : Forest.Hook S T) (σ σ' : S)
    (k : Nat) {ds : List T} (hds : t.postorder.map f.getData = ds.map some) (hpanic : feed hook σ ds = (σ', some k)) :
    ∃ g f', Forest.detach t.root f = .ok () g ∧ Models g (s.detach t.root) ∧ Tree.IsTree (s.detach t.root).kids t ∧
      Forest.removeHooked hook t.root (f, σ) = .fail (.panic "hook panicked") (f', σ') ∧
      RawKilled g (t.postorder.take (k + 1)) f' ∧ Wreck g f' (t.postorder.take (k + 1)) := by
  have hds' : t.postorder.filterMap f.getData = ds := by
    have := data_list hm t.postorder fun y hy => Tree.mem_alive hm.valid ht hx (Tree.mem_postorder.1 hy)
    rw [hds] at this
    exact (map_some_inj this).symm
  obtain ⟨f', h⟩ := removeHooked_spec hook hm ht hx σ
  rw [hds', hpanic] at h
  obtain ⟨h1, ⟨f0, hm0, hd0, hR⟩, h2⟩ := h
  obtain ⟨g, hg, hmg, hdg⟩ := forest_detach_models hm hx
  have e : f0 = g := forest_ext hm0 hmg fun y => by unfold Forest.getData; rw [hd0, hdg]
  subst e
  have ht0 := Tree.isTree_detach hm.valid ht
  refine ⟨f0, f', hg, hm0, ht0, h1, hR, hR.wreck hm0 ht0 (Shape.detach_parent_self _) hx fun y => ?_⟩
  rw [h2 y]
  congr 1
  unfold Forest.getData; rw [hd0]

/-- **C87**: if the hook given to `remove_hooked` panics at its call number `k` (`ds` are the data of the subtree in postorder), the forest
left behind is the one in which the node was only detached, with the first `k + 1` nodes in postorder torn out: they are dead; all others,
in this tree and in the rest of the forest, have their data and give their answers, except that `last_child_id` panics where the first
child is dead, and `prev_sibling_id` where the previous sibling is dead. -/
theorem C87_exactly_left (hm : Models f s) {t : Tree Nat} (ht : Tree.IsTree s.kids t) (hx : s.alive t.root = true) (hook : Forest.Hook S T)
    (σ σ' : S) (k : Nat) {ds : List T} (hds : t.postorder.map f.getData = ds.map some) (hpanic : feed hook σ ds = (σ', some k)) :
    ∃ g f', Forest.detach t.root f = .ok () g ∧
      Forest.removeHooked hook t.root (f, σ) = .fail (.panic "hook panicked") (f', σ') ∧ Wreck g f' (t.postorder.take (k + 1)) := by
  obtain ⟨g, f', h1, _, _, h2, _, h3⟩ := wreck_run hm ht hx hook σ σ' k hds hpanic
  exact ⟨g, f', h1, h2, h3⟩

theorem loop_spine {g f' : Forest T} {D : List Nat} (hm : Models g s) (hk : RawKilled g D f') (close : Nat → M (Forest T × S) Unit) (r : Nat) (σ : S) :
    ∀ (t : Tree Nat), Tree.IsTree s.kids t → s.alive t.root = true → ∀ c ∈ D, t.postorder.head? = some c → ∀ fuel, t.count < fuel →
      Forest.removeLoop close fuel { next := some (.opn t.root), root := r } (f', σ) =
        .fail (.panic "[consistency] the current node must be alive") (f', σ)
  | .node x ts, ht, hx, c, hc, hh, 0, hf => by omega
  | .node x ts, ht, hx, c, hc, hh, fuel + 1, hf => by
    have hxa : s.alive x = true := hx
    by_cases hxD : x ∈ D
    · have hn : f'.hier.neighbors x = none := by rw [neighbors_eq, hk.get, if_pos hxD]; rfl
      simp [Forest.removeLoop, M.run_bind, M.read, Safe.next, Safe.nextOfNext, hn, expect, Tree.root]
    · cases ts with
      | nil =>
        simp only [Tree.postorder, Tree.postorderL, List.nil_append, List.head?_cons, Option.some.injEq] at hh
        subst hh; exact absurd hc hxD
      | cons u us =>
        have hk' : s.kids x = u.root :: us.map Tree.root := ht.1
        have hua : s.alive u.root = true := by
          exact (hm.valid.parent_alive u.root x (hm.valid.kid_parent (by rw [hk']; simp))).1
        have hg : f'.hier.get x = s.link x := by
          rw [hk.get, if_neg hxD, hm.agrees.2 x, Shape.entry, if_pos hxa]
        have hl : f'.hier.live x := by
          have : g.hier.live x := (isAlive_iff _ _).1 (by rw [hm.hierAlive]; exact hx)
          unfold live at this ⊢
          rw [hk.get, if_neg hxD]; exact this
        have hal : (s.link x).isAlive = true := by rw [← hg]; exact hl
        have hfc : (s.link x).first = some u.root := by show (s.kids x).head? = _; rw [hk']; rfl
        have hup : u.postorder.head? = some c := by
          have hne : u.postorder ≠ [] := fun h => by have := Tree.root_mem_postorder u; rw [h] at this; cases this
          obtain ⟨a, l, e⟩ := List.exists_cons_of_ne_nil hne
          simp only [Tree.postorder, Tree.postorderL, e, List.cons_append, List.head?_cons] at hh
          rw [e]; exact hh
        have ih := loop_spine hm hk close r σ u ht.2.1 hua c hc hup fuel (by simp only [Tree.count, Tree.countL] at hf; omega)
        simp [Forest.removeLoop, M.run_bind, M.read, Safe.next, Safe.nextOfNext, neighbors_live hl, expect, Tree.root, hg, Neighbors.firstChild,
          hal, hfc]
        exact ih

theorem wreck_stuck {g f' : Forest T} (hm : Models g s) {t : Tree Nat} (ht : Tree.IsTree s.kids t) (hx : s.alive t.root = true)
    (hr : s.parent t.root = none) {n : Nat} (h0 : 0 < n) (hn : n < t.count) (hk : RawKilled g (t.postorder.take n) f')
    (close : Nat → M (Forest T × S) Unit) (σ : S) :
    Forest.removeWith close t.root (f', σ) = .fail (.panic "[consistency] the current node must be alive") (f', σ) := by
  have hv := hm.valid
  have hlen : t.postorder.length = t.count := by rw [(Tree.postorder_perm t).length_eq, Tree.length_preorder]
  have hnd := Tree.postorder_nodup hv ht
  have hlast : t.postorder = t.postorder.dropLast ++ [t.root] := by
    cases t with
    | node x ts => simp [Tree.postorder, Tree.root]
  have hrD : t.root ∉ t.postorder.take n := by
    have hle : n ≤ t.postorder.dropLast.length := by simp [hlen]; omega
    rw [hlast] at hnd ⊢
    rw [List.take_append_of_le_length hle]
    intro h
    exact (List.nodup_append.1 hnd).2.2 _ (List.mem_of_mem_take h) _ (by simp) rfl
  have hg : f'.hier.get t.root = s.link t.root := by rw [hk.get, if_neg hrD, hm.agrees.2, Shape.entry, if_pos hx]
  have hl : f'.hier.live t.root := by
    have : g.hier.live t.root := (isAlive_iff _ _).1 (by rw [hm.hierAlive]; exact hx)
    unfold live at this ⊢
    rw [hk.get, if_neg hrD]; exact this
  have ha : f'.hier.isAlive t.root = true := (isAlive_iff _ _).2 hl
  have hal : (s.link t.root).isAlive = true := by rw [← hg]; exact hl
  have hdet : Forest.detach t.root f' = .ok () f' := by
    have : Hier.detach t.root f'.hier = .ok () f'.hier := by
      have hp : (s.link t.root).parent = none := hr
      simp [Hier.detach, M.run_bind, nbrOf_live hl, M.read, hg, Neighbors.getParent, hal, hp]
    exact forest_detach_of_hier this
  obtain ⟨c, hc⟩ : ∃ c, t.postorder.head? = some c := by
    cases e : t.postorder with
    | nil => rw [e] at hlast; simp at hlast
    | cons a l => exact ⟨a, rfl⟩
  have hcD : c ∈ t.postorder.take n := by
    cases e : t.postorder with
    | nil => rw [e] at hc; cases hc
    | cons a l =>
      rw [e] at hc; cases hc
      obtain ⟨m, rfl⟩ : ∃ m, n = m + 1 := ⟨n - 1, by omega⟩
      simp
  have hfuel : t.count < Forest.removeFuel f' := by
    have h1 := Tree.count_le_size hv ht hx
    have h2 : f'.hier.nbrs.length = s.size := by rw [hk.len]; exact hm.agrees.1
    unfold Forest.removeFuel
    rw [h2]
    have : s.size + 1 ≤ (s.size + 1) * (s.size + 2) := Nat.le_mul_of_pos_right _ (by omega)
    omega
  have := loop_spine hm hk close t.root σ t ht hx c hcD hc _ hfuel
  simp only [Forest.removeWith, M.run_bind, M.read, ha, Bool.not_true, Bool.false_eq_true, if_false,
    onForest_run hdet, Safe.new]
  exact this

/-- **C87**: what is left of the tree cannot be removed: after a panic of the hook before its last call, every further attempt to remove the
node, by `remove_hooked` or `remove_hooked_panic_safe` with any hook, or by `remove`, panics before it calls the hook and changes nothing. -/
theorem C87_leftover_unremovable (hm : Models f s) {t : Tree Nat} (ht : Tree.IsTree s.kids t) (hx : s.alive t.root = true)
    (hook : Forest.Hook S T) (σ σ' : S) (k : Nat) {ds : List T} (hds : t.postorder.map f.getData = ds.map some)
    (hpanic : feed hook σ ds = (σ', some k)) (hk : k + 1 < t.count) :
    ∃ f', Forest.removeHooked hook t.root (f, σ) = .fail (.panic "hook panicked") (f', σ') ∧
      ∃ msg, (∀ (S' : Type) (hook' : Forest.Hook S' T) (τ : S'),
        Forest.removeHooked hook' t.root (f', τ) = .fail (.panic msg) (f', τ) ∧
        Forest.removeHookedPanicSafe hook' t.root (f', τ) = .fail (.panic msg) (f', τ)) ∧
      Forest.remove t.root f' = .fail (.panic msg) f' := by
  obtain ⟨g, f', _, hmg, htg, h2, hR, _⟩ := wreck_run hm ht hx hook σ σ' k hds hpanic
  have key := fun (S' : Type) (close : Nat → M (Forest T × S') Unit) (τ : S') =>
    wreck_stuck hmg htg hx (Shape.detach_parent_self _) (Nat.succ_pos k) hk hR close τ
  refine ⟨f', h2, "[consistency] the current node must be alive", fun S' hook' τ => ⟨key S' _ τ, key S' _ τ⟩, ?_⟩
  have h := key Unit (Forest.closeForce fun s (_ : T) => .ok s) ()
  simp only [Forest.remove, Forest.removeHooked, h]

/-! ### Examples -/

/-- The sample, the hook panicking at its third call. -/
example : feed (fun (n : Nat) (_ : Nat) => if n = 2 then .error n else .ok (n + 1)) 0 [11, 14, 15, 12, 13, 10] = (2, some 2) := by decide

example : ∃ f', Forest.removeHooked (fun (n : Nat) (_ : Nat) => if n = 2 then .error n else .ok (n + 1)) 0 (Sample.built, 0) =
    .fail (.panic "hook panicked") (f', 2) ∧ ∃ msg, Forest.remove 0 f' = .fail (.panic msg) f' := by
  obtain ⟨f', h1, msg, _, h2⟩ := C87_leftover_unremovable Sample.models Sample.isTree rfl
    (fun (n : Nat) (_ : Nat) => if n = 2 then .error n else .ok (n + 1)) 0 2 2 (ds := [11, 14, 15, 12, 13, 10]) (by decide) (by decide) (by decide)
  exact ⟨f', h1, msg, h2⟩

/-! ### The hypotheses can be met

Each example applies the theorem named in its comment to a concrete forest. -/

section
/-- `C87_exactly_left`: a hook that panics at its third call. -/
example := C87_exactly_left Sample.models Sample.isTree rfl (fun (k : Nat) _ => if k = 2 then .error k else .ok (k + 1)) 0 2 2
  (ds := [11, 14, 15, 12, 13, 10]) (by decide) (by decide)

end

end Treena
