import Verif.Proof.PlainSim
import Verif.Proof.Clone
import Verif.Proof.Builders
import Verif.Props.Print
import Verif.Proof.Printed
import Verif.Proof.OwnId
/-!
# The naive implementation simulates the modelled code: copies, builders, node proxies, and all calls together
-/
set_option autoImplicit false

namespace Treena
variable {T : Type}

namespace Tree
variable {α β : Type}

mutual
theorem number_of_map (g : α → β) : ∀ (t : Tree α) (b : Nat), (t.map g).number b = t.number b
  | .node a ts, b => by simp only [map, number, numberL_of_map g ts]
theorem numberL_of_map (g : α → β) : ∀ (ts : List (Tree α)) (b : Nat), numberL b (mapL g ts) = numberL b ts
  | [], b => rfl
  | t :: ts, b => by simp only [mapL, numberL, number_of_map g t, numberL_of_map g ts, count_map]
end

mutual
theorem trunc_map (g : α → β) : ∀ (t : Tree α) (m : Nat), (t.map g).trunc m = (t.trunc m).map (map g)
  | .node a ts, m => by
    simp only [map, trunc]
    split
    · rfl
    · rw [truncL_map g ts]; simp only [List.map_cons, List.map_nil, map, mapL_eq]
theorem truncL_map (g : α → β) : ∀ (ts : List (Tree α)) (m : Nat), truncL m (mapL g ts) = (truncL m ts).map (map g)
  | [], m => rfl
  | t :: ts, m => by simp only [mapL, truncL, trunc_map g t, truncL_map g ts, List.map_append, count_map]
end

theorem map_map {γ : Type} (g : α → β) (h : β → γ) : ∀ t : Tree α, (t.map g).map h = t.map (h ∘ g) := by
  refine ind fun a ts ih => ?_
  rw [map_node, map_node, map_node, List.map_map]
  congr 1
  exact List.map_congr_left ih

theorem map_congr {g h : α → β} : ∀ t : Tree α, (∀ a ∈ t.preorder, g a = h a) → t.map g = t.map h := by
  refine ind fun a ts ih hgh => ?_
  rw [preorder_node] at hgh
  rw [map_node, map_node, hgh a (by simp)]
  congr 1
  exact List.map_congr_left fun t ht => ih t ht fun b hb => hgh b (List.mem_cons_of_mem _ (List.mem_flatMap.2 ⟨t, ht, hb⟩))

theorem trunc_cases (t : Tree α) (m : Nat) : (m = 0 ∧ t.trunc m = []) ∨ (0 < m ∧ ∃ u, t.trunc m = [u]) := by
  obtain ⟨a, ts⟩ := t
  rw [trunc]
  by_cases h : m = 0
  · exact .inl ⟨h, by rw [if_pos h]⟩
  · exact .inr ⟨by omega, _, by rw [if_neg h]⟩

end Tree

namespace Plain
open Wood
variable {r : Plain T} {f : Forest T} {s : Shape}

/-- What is copied of a datum, if anything. -/
theorem copied_planted {fs : Forest T} {cl : T → Option T} {v : Tree (Nat × T)} {g : Forest T} {s' : Shape}
    (hst : ∀ p ∈ v.preorder, fs.getData p.1 = some p.2) (hcl : ∀ p ∈ v.preorder, (cl p.2).isSome = true)
    (h : Copied f s cl fs.getData (sk v) g s') : Planted f s (v.map fun p => (cl p.2).getD p.2) g s' := by
  refine ⟨h.grown, ?_, ?_, h.root, h.alive, ?_⟩
  · rw [h.size, Tree.count_map, sk, Tree.count_map]
  · have := h.tree
    rw [sk, Tree.number_of_map] at this
    rw [Tree.number_of_map]
    exact this
  · rw [h.data, copies, preorder_sk, Tree.preorder_map, List.map_map, List.map_map]
    congr 1
    refine List.map_congr_left fun p hp => ?_
    obtain ⟨c, hc⟩ := Option.isSome_iff_exists.1 (hcl p hp)
    simp [hst p hp, hc]

/-- A forest that has not grown. -/
theorem Abs.same (h : Abs r f s) {g : Forest T} {s' : Shape} (h2 : Grown f s g s') (hs : s'.size = s.size) : Abs r g s' := by
  have hm := h.models
  have hv := hm.valid
  have hva := h2.models.valid
  refine ⟨h2.models, by rw [hs, h.size], ?_, fun t ht p hp => ?_⟩
  · have : s' = s := by
      have hd : ∀ x, s.size ≤ x → s.alive x = false := fun x hx => by
        cases ea : s.alive x with
        | false => rfl
        | true => have := hv.alive_lt x ea; omega
      have hd' : ∀ x, s.size ≤ x → s'.alive x = false := fun x hx => by
        cases ea : s'.alive x with
        | false => rfl
        | true => have := hva.alive_lt x ea; omega
      have e1 : s'.alive = s.alive := by
        funext x
        rcases Nat.lt_or_ge x s.size with hx | hx
        · exact h2.alive x hx
        · rw [hd x hx, hd' x hx]
      have e2 : s'.parent = s.parent := by
        funext x
        rcases Nat.lt_or_ge x s.size with hx | hx
        · exact h2.parent x hx
        · rw [hv.dead_parent (hd x hx), hva.dead_parent (hd' x hx)]
      have e3 : s'.kids = s.kids := by
        funext x
        rcases Nat.lt_or_ge x s.size with hx | hx
        · exact h2.kids x hx
        · rw [hv.dead_kids (hd x hx), hva.dead_kids (hd' x hx)]
      cases s; cases s'; simp_all
    rw [this]; exact h.shaped
  · have hlt : p.1 < s.size := hv.alive_lt _ ((h.shaped.mem_ids hv _).1 (Wood.mem_ids.2 ⟨t, ht, by
      rw [preorder_sk]; exact List.mem_map_of_mem hp⟩))
    rw [h2.data _ hlt]
    exact h.stored t ht p hp

/-- The first `m` nodes have been copied. -/
theorem Abs.grownBy (h : Abs r f s) {fs g : Forest T} {s' : Shape} {cl : T → Option T} {u : Tree (Nat × T)} {m : Nat}
    (hst : ∀ p ∈ u.preorder, fs.getData p.1 = some p.2) (hm : m ≤ u.count)
    (hcl : ∀ p ∈ u.preorder.take m, (cl p.2).isSome = true) (h2 : Grown f s g s') (hs : s'.size = s.size + m)
    (h5 : ∀ t' ∈ (sk u).trunc m, Copied f s cl fs.getData t' g s') :
    Abs ⟨r.issued + m, r.trees ++ ((u.map fun p => (cl p.2).getD p.2).trunc m).map (Wood.stamp r.issued)⟩ g s' := by
  rw [Tree.trunc_map]
  have htr := Tree.trunc_map (fun p : Nat × T => p.1) u m
  change (sk u).trunc m = (u.trunc m).map sk at htr
  rw [htr] at h5
  have hpre := Tree.preorderL_trunc u m
  rcases u.trunc_cases m with ⟨h0, ht0⟩ | ⟨h0, v, ht0⟩
  · subst h0
    rw [ht0]
    simp only [List.map_nil, List.append_nil]
    exact h.same h2 hs
  · rw [ht0] at h5 hpre ⊢
    simp only [Tree.preorderL, List.append_nil] at hpre
    have hstv : ∀ p ∈ v.preorder, fs.getData p.1 = some p.2 := fun p hp => by
      rw [hpre] at hp; exact hst p (List.mem_of_mem_take hp)
    have hclv : ∀ p ∈ v.preorder, (cl p.2).isSome = true := fun p hp => by
      rw [hpre] at hp; exact hcl p hp
    have hcv : v.count = m := by
      rw [← Tree.length_preorder, hpre, List.length_take, Tree.length_preorder]; omega
    have := h.planted (copied_planted hstv hclv (h5 (sk v) (by simp)))
    rw [Tree.count_map, hcv] at this
    exact this

theorem made_skip {room : Nat} {limit : Option Nat} : ∀ (k i : Nat) (l : List Bool), (∀ b ∈ l.take k, b = true) → k ≤ l.length →
    (k = 0 ∨ i + k ≤ room) → (∀ j, limit = some j → j < i ∨ i + k ≤ j) →
    made room limit i l = made room limit (i + k) (l.drop k) := by
  intro k
  induction k with
  | zero => intro i l _ _ _ _; simp
  | succ k ih =>
    intro i l h1 h2 h3 h4
    cases l with
    | nil => simp at h2
    | cons b l =>
      have hb : b = true := h1 b (by simp)
      subst hb
      rw [made, if_neg (by simp; omega), if_neg (fun e => by have := h4 _ e; omega),
        ih (i + 1) l (fun b hb => h1 b (by simp [hb])) (by simpa using h2) (by omega)
          (fun j hj => by have := h4 j hj; omega), List.drop_succ_cons]
      congr 1
      omega

theorem record_none {ι : Type} {limit : Option Nat} {l : List ι} (h : (feed (Req.record limit) [] l).2 = none) (j : Nat)
    (hj : limit = some j) : l.length ≤ j := by
  rcases Nat.lt_or_ge j l.length with hlt | hge
  · rw [feed_record_hit limit l [] j (by simpa using hj) hlt] at h
    cases h
  · exact hge

theorem record_some {ι : Type} {limit : Option Nat} {l : List ι} {k : Nat} (h : (feed (Req.record limit) [] l).2 = some k) :
    limit = some k := by
  cases limit with
  | none => rw [feed_record_ok none l [] (by simp)] at h; cases h
  | some j =>
    rcases Nat.lt_or_ge j l.length with hlt | hge
    · rw [feed_record_hit (some j) l [] j (by simp) hlt] at h
      cases h; rfl
    · rw [feed_record_ok (some j) l [] (fun k hk => by cases hk; exact .inr (by simpa using hge))] at h
      cases h

/-- Copying a tree of this or another forest. -/
theorem Abs.copyTree (h : Abs r f s) {fs : Forest T} (cap : Nat) {u : Tree (Nat × T)}
    (hst : ∀ p ∈ u.preorder, fs.getData p.1 = some p.2) (cl : T → Option T) (limit : Option Nat)
    {run : Res (Forest T × List (Nat × Nat)) Nat}
    (hco : CloneOutcome f s cap cl (fun l a b => Req.record limit l (a, b)) fs.getData (sk u) [] run) :
    Sim (Ans.ofResS .copied run) (r.copyTree cap u cl limit) := by
  have hsz := h.size
  have hcnt : (sk u).count = u.count := Tree.count_map _ _
  have hpl : u.preorder.length = u.count := Tree.length_preorder u
  have hlen : ((sk u).preorder.zip (List.range' s.size (sk u).count)).length = u.count := by
    simp [Tree.length_preorder, hcnt]
  have hgood : ((sk u).preorder.zip (List.range' s.size (sk u).count)).map (fun q => clones cl fs.getData q.1) =
      u.preorder.map fun p => (cl p.2).isSome := by
    have : ((sk u).preorder.zip (List.range' s.size (sk u).count)).map (fun q => clones cl fs.getData q.1) =
        (((sk u).preorder.zip (List.range' s.size (sk u).count)).map Prod.fst).map (clones cl fs.getData) := by
      rw [List.map_map]; rfl
    rw [this, List.map_fst_zip (by simp [Tree.length_preorder]), preorder_sk, List.map_map]
    refine List.map_congr_left fun p hp => ?_
    simp [clones, hst p hp]
  have hlg : (u.preorder.map fun p => (cl p.2).isSome).length = u.count := by simp [hpl]
  have htake : ∀ k, (∀ q ∈ ((sk u).preorder.zip (List.range' s.size (sk u).count)).take k, clones cl fs.getData q.1 = true) →
      ∀ b ∈ (u.preorder.map fun p => (cl p.2).isSome).take k, b = true := by
    intro k hk b hb
    rw [← hgood, ← List.map_take] at hb
    obtain ⟨q, hq, rfl⟩ := List.mem_map.1 hb
    exact hk q hq
  have hcl : ∀ k, (∀ b ∈ (u.preorder.map fun p => (cl p.2).isSome).take k, b = true) →
      ∀ p ∈ u.preorder.take k, (cl p.2).isSome = true := by
    intro k hk p hp
    refine hk _ ?_
    rw [← List.map_take]
    exact List.mem_map.2 ⟨p, hp, rfl⟩
  unfold Plain.copyTree
  obtain ⟨g, σ', s', ⟨h1, h2, h2', h3, h4⟩ | ⟨e', m, h1, h2, h3, h4, h5, h6⟩⟩ := hco
  · rw [pairHook_record] at h1
    have hnone := record_none (congrArg Prod.snd h1)
    rw [hlen] at hnone
    rw [feed_record_ok _ _ _ (fun k hk => .inr (by rw [hlen]; simpa using hnone k hk))] at h1
    simp only [List.nil_append, Prod.mk.injEq, and_true] at h1
    subst h1
    have hall : ∀ b ∈ (u.preorder.map fun p => (cl p.2).isSome).take u.count, b = true := by
      refine htake _ fun q hq => h2' _ ?_
      exact (List.of_mem_zip (List.mem_of_mem_take hq)).1
    have hmade : made (cap - r.issued) limit 0 (u.preorder.map fun p => (cl p.2).isSome) = (u.count, true) := by
      rw [made_skip u.count 0 _ hall (by omega) (by rw [hcnt] at h2; omega) (fun j hj => .inr (by have := hnone j hj; omega)),
        List.drop_eq_nil_of_le (by omega)]
      simp [made]
    have hall' := hcl _ hall
    rw [List.take_of_length_le (by omega)] at hall'
    have := h.planted (copied_planted hst hall' h3)
    rw [h4]
    simp only [hmade]
    rw [Tree.count_map] at this
    refine ⟨by rw [preorder_sk, hcnt, hsz]; rfl, s', ?_⟩
    have ht : (u.map fun p => (cl p.2).getD p.2).trunc u.count = [u.map fun p => (cl p.2).getD p.2] :=
      Tree.trunc_all _ (by rw [Tree.count_map])
    simp only [ht]
    exact this
  · have key : m ≤ u.count ∧ (∀ b ∈ (u.preorder.map fun p => (cl p.2).isSome).take m, b = true) ∧
        made (cap - r.issued) limit 0 (u.preorder.map fun p => (cl p.2).isSome) = (m, false) ∧ ∃ msg, e' = .panic msg := by
      cases h6 with
      | hook k hf hk hc hq =>
        rw [pairHook_record] at hf
        have hl := record_some (congrArg Prod.snd hf)
        rw [hlen] at hk
        have hq' := htake _ hq
        refine ⟨by omega, hq', ?_, _, rfl⟩
        rw [made_skip k 0 _ (fun b hb => hq' b (by rw [List.take_add_one]; simp [hb])) (by omega) (by omega)
          (fun j hj => by rw [hl] at hj; cases hj; omega)]
        obtain ⟨b, l, hbl⟩ := List.exists_cons_of_length_pos (l := (u.preorder.map fun p => (cl p.2).isSome).drop k) (by simp; omega)
        have hb : b = true := by
          refine hq' b (List.mem_take_iff_getElem.2 ⟨k, by simp; omega, ?_⟩)
          have : (u.preorder.map fun p => (cl p.2).isSome)[k]? = some b := by
            rw [← List.head?_drop, hbl]; rfl
          exact (List.getElem_eq_iff _).2 this
        rw [hbl, made, if_neg (by simp [hb]; omega), if_pos (by simpa using hl), Nat.zero_add]
      | full hc hf hq =>
        rw [pairHook_record] at hf
        rw [hlen] at hc
        have hl := record_none (congrArg Prod.snd hf)
        rw [List.length_take, hlen] at hl
        have hq' : ∀ b ∈ (u.preorder.map fun p => (cl p.2).isSome).take (cap - s.size), b = true :=
          fun b hb => htake _ hq b (by rw [List.take_add_one]; simp [hb])
        refine ⟨by omega, hq', ?_, _, rfl⟩
        rw [made_skip (cap - s.size) 0 _ hq' (by omega) (by omega) (fun j hj => by have := hl j hj; omega)]
        obtain ⟨b, l, hbl⟩ := List.exists_cons_of_length_pos
          (l := (u.preorder.map fun p => (cl p.2).isSome).drop (cap - s.size)) (by simp; omega)
        rw [hbl, made, if_pos (by omega), Nat.zero_add]
      | clone k hf hc hq hq2 =>
        rw [pairHook_record] at hf
        obtain ⟨q, hqk, hqf⟩ := hq2
        have hk : m < u.count := by
          rw [← hlen]
          exact (List.getElem?_eq_some_iff.1 hqk).1
        have hl := record_none (congrArg Prod.snd hf)
        rw [List.length_take, hlen] at hl
        have hq' := htake _ hq
        refine ⟨by omega, hq', ?_, _, rfl⟩
        rw [made_skip m 0 _ hq' (by omega) (by omega) (fun j hj => by have := hl j hj; omega)]
        have hb : (u.preorder.map fun p => (cl p.2).isSome)[m]? = some false := by
          rw [← hgood, List.getElem?_map, hqk]
          simp [hqf]
        obtain ⟨b, l, hbl⟩ := List.exists_cons_of_length_pos
          (l := (u.preorder.map fun p => (cl p.2).isSome).drop m) (by simp; omega)
        have : b = false := by
          rw [← List.head?_drop, hbl] at hb
          simpa using hb
        rw [hbl, made, if_pos (.inl this), Nat.zero_add]
    obtain ⟨hm, hb, hmade, msg, rfl⟩ := key
    rw [h1]
    simp only [hmade]
    exact ⟨rfl, s', h.grownBy hst hm (hcl _ hb) h2 h3 h5⟩

theorem Abs.copy (h : Abs r f s) (cap : Nat) (x : Nat) (cl : T → Option T) (limit : Option Nat) :
    Sim (Ans.ofResS .copied (Forest.cloneLocalTreeWithIdMapping cap cl (fun l a b => Req.record limit l (a, b)) x (f, [])))
      (r.copy cap x cl limit) := by
  have hm := h.models
  unfold Plain.copy
  rcases h.find x with ⟨hx, e⟩ | ⟨hx, u, e, hu, ht⟩
  · rw [at_dead e, cloneLocal_dead (by rw [hm.isAlive]; exact hx)]
    exact h.sim _
  rw [at_alive e]
  have hr : (sk u).root = x := by rw [root_sk, hu]
  have hco := cloneLocal_spec (cap := cap) (cl := cl) (hook := fun l a b => Req.record limit l (a, b)) hm ht
    (by rw [hr]; exact hx) ([] : List (Nat × Nat))
  rw [hr] at hco
  exact h.copyTree cap (h.stored.find e) cl limit hco

theorem Abs.dupTree (h : Abs r f s) (cap : Nat) (x : Nat) (cl : T → Option T) :
    Sim (Ans.ofRes .id (Forest.cloneLocalTree cap cl x f))
      ((r.copy cap x cl none).1, match (r.copy cap x cl none).2 with | .copied n _ => .id n | a => a) := by
  obtain ⟨h1, s', h2⟩ := h.copy cap x cl none
  have hs : HookSim IdImpl.internal (fun _ : List (Nat × Nat) => ())
      (fun l a b => Req.record none l (a, b)) (fun s _ _ => .ok s) := fun l a b => by
    simp [Req.record]
  have hl : IdImpl.internal.Lawful := ⟨fun _ => rfl, fun _ => rfl⟩
  have ha := Own.cloneLocal_sim (ty := IdImpl.internal) hl hs cap cl x (f, [])
  have hb := Own.cloneLocal_sim (ty := IdImpl.internal) (G := fun u : Unit => u) (hook := fun s _ _ => .ok s)
    (hook' := fun s _ _ => .ok s) hl (fun _ _ _ => rfl) cap cl x (f, ())
  have hab := ha.symm.trans hb
  unfold Forest.cloneLocalTree Forest.noHook
  have he : IdImpl.internal.unwrap x = x := rfl
  rw [he] at hab
  generalize Forest.cloneLocalTreeWithIdMapping cap cl (fun s _ _ => .ok s) x (f, ()) = w at hab ⊢
  generalize Forest.cloneLocalTreeWithIdMapping cap cl (fun l a b => Req.record none l (a, b)) x (f, []) = w' at hab h1 h2
  cases w with
  | ok a g =>
    obtain ⟨g, _⟩ := g
    cases w' with
    | ok a' g' =>
      obtain ⟨g', c⟩ := g'
      simp only [Res.map2, Own.onSnd, Res.ok.injEq, Prod.mk.injEq] at hab
      obtain ⟨rfl, rfl, -⟩ := hab
      refine ⟨?_, s', h2⟩
      rw [← h1]; rfl
    | fail e g' => cases hab
  | fail e g =>
    obtain ⟨g, _⟩ := g
    cases w' with
    | ok a' g' => cases hab
    | fail e' g' =>
      obtain ⟨g', c⟩ := g'
      simp only [Res.map2, Own.onSnd, Res.fail.injEq, Prod.mk.injEq] at hab
      obtain ⟨rfl, rfl, -⟩ := hab
      refine ⟨?_, s', h2⟩
      rw [← h1]
      cases e' <;> rfl

theorem string_feed : ∀ (W : List Text) (out : Text),
    feed (fun out piece => (.ok (out ++ piece) : Except Text Text)) out W = (out ++ W.flatten, none)
  | [], out => by simp [feed]
  | w :: W, out => by simp [feed, string_feed W]

theorem Abs.print (h : Abs r f s) (cap um : Nat) (x : Nat) (pieces : T → List Text) :
    Sim ((Req.print x pieces : Req T).exec cap um f) (r.print x pieces) := by
  have hm := h.models
  unfold Plain.print
  simp only [Req.exec]
  rcases h.find x with ⟨hx, e⟩ | ⟨hx, u, e, hu, ht⟩
  · rw [at_dead e, C33_dead hm hx]
    exact h.sim _
  · rw [at_alive e]
    have hr : (sk u).root = x := by rw [root_sk, hu]
    have hst := h.stored.find e
    let lab : Nat → List Text := fun y => ((f.getData y).map pieces).getD []
    have hd : ∀ y ∈ (sk u).preorder, ∃ d, f.getData y = some d ∧ (fun d => Fmt.ofPieces true (pieces d)) d = .ofPieces true (lab y) := by
      intro y hy
      rw [preorder_sk] at hy
      obtain ⟨p, hp, rfl⟩ := List.mem_map.1 hy
      exact ⟨p.2, hst p hp, by simp only [lab, hst p hp]; rfl⟩
    obtain ⟨W, l, i, hW, hE⟩ := DebugPrint.exact_inner (put := fun out piece => (.ok (out ++ piece) : Except Text Text)) hm ht
      (by rw [hr]; exact hx) lab hd
    have hn : f.node x = some x := by
      unfold Forest.node; rw [hm.isAlive, hx]; rfl
    have he := (hE []).1 (by rw [string_feed])
    rw [string_feed, hr] at he
    have hmap : (sk u).map lab = u.map fun p => pieces p.2 := by
      rw [sk, Tree.map_map]
      exact Tree.map_congr _ fun p hp => by simp [lab, hst p hp]
    rw [hmap] at hW
    unfold Forest.debugPrint
    rw [hn, expect_some]
    have hnew : DebugPrint.Writer.new ([] : Text) = ⟨[], .beforeIndent, []⟩ := rfl
    simp only [hnew, he, hW, List.nil_append]
    exact h.sim _

theorem Abs.created (h : Abs r f s) {cap : Nat} {d : T} {dest : InsertAs} {n : Nat} {g : Forest T}
    (he : Forest.createInsert cap d dest f = .ok n g) : g.isAlive n = true := by
  have hm := h.models
  by_cases ha : s.size ≤ dest.place.anchor
  · rw [createInsert_invalid hm d ha] at he; cases he
  by_cases hc : cap ≤ s.size
  · rw [createInsert_full' hm hc d (by omega)] at he; cases he
  by_cases hb : s.alive dest.place.anchor = false ∨ s.placeParent dest.place = none
  · obtain ⟨msg, f', h1, -⟩ := createInsert_orphan hm (cap := cap) (by omega) d (by omega) hb
    rw [h1] at he; cases he
  · rw [not_or] at hb
    cases hP : s.placeParent dest.place with
    | none => exact absurd hP hb.2
    | some P =>
      obtain ⟨f', h1, h2, -⟩ := createInsert_models hm (by omega : s.size < cap) d (by simpa using hb.1) hP
      rw [h1] at he
      cases he
      rw [h2.isAlive, move_alive]
      exact Shape.addRoot_alive_self s

/-- A creation, for the cursor of a `ChainTreeBuilder`. -/
theorem Abs.chainCreate (h : Abs r f s) (cap : Nat) (d : T) (dest : InsertAs) :
    (∃ n r' g s', r.createInsert cap d dest.place = (r', .id n) ∧ Forest.createInsert cap d dest f = .ok n g ∧
      Abs r' g s' ∧ s'.alive n = true) ∨
    (∃ r' m g s', r.createInsert cap d dest.place = (r', .panicked) ∧
      Forest.createInsert cap d dest f = .fail (.panic m) g ∧ Abs r' g s') := by
  obtain ⟨h1, s', h2⟩ := h.createInsert cap d dest
  have hcr := @Abs.created _ _ _ _ h cap d dest
  generalize hq : r.createInsert cap d dest.place = q at h1 h2
  obtain ⟨r', a⟩ := q
  generalize hp : Forest.createInsert cap d dest f = p at h1 h2 hcr
  cases p with
  | ok n g =>
    simp only [Ans.ofRes] at h1 h2
    subst h1
    exact .inl ⟨n, r', g, s', rfl, rfl, h2, by rw [← h2.models.isAlive]; exact hcr rfl⟩
  | fail e g =>
    simp only [Ans.ofRes] at h1 h2
    cases e with
    | panic m =>
      simp only [Ans.ofFail] at h1
      subst h1
      exact .inr ⟨r', m, g, s', rfl, rfl, h2⟩
    | diverge =>
      exfalso
      simp only [Ans.ofFail] at h1
      subst h1
      unfold Plain.createInsert at hq
      split at hq
      · cases hq
      · split at hq <;> cases hq

theorem Abs.chainL (cap : Nat) : ∀ (cs : List (ChainCall T)) (r : Plain T) (b : Chain T) (s : Shape),
    Abs r b.forest s → s.alive b.current = true →
    ∃ b' s', b'.root = b.root ∧ Abs (r.chainL cap b.current cs).1 b'.forest s' ∧
      (((r.chainL cap b.current cs).2 = true ∧ ChainCall.execL cap cs b = .ok () b') ∨
       ((r.chainL cap b.current cs).2 = false ∧ ∃ m, ChainCall.execL cap cs b = .fail (.panic m) b'))
  | [], r, b, s, h, ha => ⟨b, s, rfl, h, .inl ⟨rfl, rfl⟩⟩
  | .child d :: cs, r, b, s, h, ha => by
    rw [Plain.chainL, ChainCall.execL, M.run_bind, ChainCall.exec]
    rcases h.chainCreate cap d (.lastChildOf b.current) with ⟨n, r', g, s', h1, h2, h3, h4⟩ | ⟨r', m, g, s', h1, h2, h3⟩
    · rw [show (Place.lastChildOf b.current) = (InsertAs.lastChildOf b.current).place from rfl, h1, Chain.child_ok h2]
      obtain ⟨b', s'', k1, k2⟩ := Abs.chainL cap cs r' ⟨g, b.root, n⟩ s' h3 h4
      exact ⟨b', s'', k1, k2⟩
    · rw [show (Place.lastChildOf b.current) = (InsertAs.lastChildOf b.current).place from rfl, h1, Chain.child_fail h2]
      exact ⟨⟨g, b.root, b.current⟩, s', rfl, h3, .inr ⟨rfl, m, rfl⟩⟩
  | .sibling d :: cs, r, b, s, h, ha => by
    rw [Plain.chainL, ChainCall.execL, M.run_bind, ChainCall.exec]
    rcases h.chainCreate cap d (.nextSiblingOf b.current) with ⟨n, r', g, s', h1, h2, h3, h4⟩ | ⟨r', m, g, s', h1, h2, h3⟩
    · rw [show (Place.after b.current) = (InsertAs.nextSiblingOf b.current).place from rfl, h1, Chain.sibling_ok h2]
      obtain ⟨b', s'', k1, k2⟩ := Abs.chainL cap cs r' ⟨g, b.root, n⟩ s' h3 h4
      exact ⟨b', s'', k1, k2⟩
    · rw [show (Place.after b.current) = (InsertAs.nextSiblingOf b.current).place from rfl, h1, Chain.sibling_fail h2]
      exact ⟨⟨g, b.root, b.current⟩, s', rfl, h3, .inr ⟨rfl, m, rfl⟩⟩
  | .parent :: cs, r, b, s, h, ha => by
    rw [Plain.chainL, ChainCall.execL, M.run_bind, ChainCall.exec]
    rw [Chain.parent_eq (Chain.parentOfCurrent_eq h.models ha), h.parent]
    cases hp : s.parent b.current with
    | none => exact ⟨b, s, rfl, h, .inr ⟨rfl, _, rfl⟩⟩
    | some p =>
      obtain ⟨b', s'', k1, k2⟩ := Abs.chainL cap cs r ⟨b.forest, b.root, p⟩ s h (h.models.valid.parent_alive _ _ hp).2
      exact ⟨b', s'', k1, k2⟩
  | .tryParent :: cs, r, b, s, h, ha => by
    rw [Plain.chainL, ChainCall.execL, M.run_bind, ChainCall.exec, M.run_bind]
    rw [Chain.tryParent_eq (Chain.parentOfCurrent_eq h.models ha), h.parent]
    cases hp : s.parent b.current with
    | none => exact Abs.chainL cap cs r b s h ha
    | some p =>
      obtain ⟨b', s'', k1, k2⟩ := Abs.chainL cap cs r ⟨b.forest, b.root, p⟩ s h (h.models.valid.parent_alive _ _ hp).2
      exact ⟨b', s'', k1, k2⟩

theorem Abs.chain (h : Abs r f s) (cap : Nat) (d : T) (cs : List (ChainCall T)) :
    Sim (Ans.ofRes .id (chainBuild cap d cs f)) (r.chain cap d cs) := by
  have h0 := h.createRoot cap d
  unfold Plain.chain chainBuild Chain.new
  unfold Plain.createRoot at h0 ⊢
  by_cases hc : cap ≤ r.issued
  · rw [if_pos hc]
    rw [createRoot_full h.models (by rw [h.size]; exact hc)]
    exact h.sim _
  · rw [if_neg hc] at h0 ⊢
    obtain ⟨g, h1, h2, h3⟩ := createRoot_models h.models (cap := cap) (by rw [h.size]; omega) d
    rw [h1] at h0 ⊢
    obtain ⟨-, s', h4⟩ := h0
    have h5 : s'.alive s.size = true := by
      rw [← h4.models.isAlive]
      show g.isAlive _ = true
      rw [h2.isAlive]; exact Shape.addRoot_alive_self s
    obtain ⟨b', s'', k1, k2, k3⟩ := Abs.chainL cap cs _ ⟨g, s.size, s.size⟩ s' h4 h5
    simp only [h.size] at k1 k2 k3 ⊢
    rcases k3 with ⟨k3, k4⟩ | ⟨k3, m, k4⟩
    · rw [k4]
      generalize Plain.chainL _ _ _ _ = q at k2 k3
      obtain ⟨q1, q2⟩ := q
      simp only at k2 k3
      subst k3
      exact ⟨by simp only [Ans.ofRes, Chain.rootId, k1], _, k2⟩
    · rw [k4]
      generalize Plain.chainL _ _ _ _ = q at k2 k3
      obtain ⟨q1, q2⟩ := q
      simp only at k2 k3
      subst k3
      exact ⟨rfl, _, k2⟩

theorem adopt_place (self : Nat) (dest : AdoptAs) : dest.insertWithAnchor self = adoptPlace self dest := by
  cases dest <;> rfl

/-- One call. -/
theorem Abs.exec (h : Abs r f s) (cap um : Nat) (q : Req T) {y : Plain T × Ans T}
    (hy : r.exec cap um q = some y) : Sim (q.exec cap um f) y := by
  cases hr : q.reads with
  | true =>
    obtain ⟨a, h1, h2⟩ := h.read cap um q hr
    rw [h1] at hy
    cases hy
    rw [h2]; exact h.sim a
  | false =>
  have hal : ∀ x, f.isAlive x = r.alive x := fun x => by rw [h.alive, h.models.isAlive]
  cases q with
  | createRoot d => cases hy; exact h.createRoot cap d
  | createInsert d dest => cases hy; exact h.createInsert cap d dest
  | setData x v => cases hy; exact h.setData x v
  | insert x dest => exact h.insert x dest hy
  | detach x => cases hy; exact h.detach x
  | detachSingle x => cases hy; exact h.detachSingle x
  | drop x => cases hy; exact h.drop x
  | remove x limit => exact h.removeForce x limit hy
  | removeSafe x limit => cases hy; exact h.removeSafe x limit
  | copy x cl limit => cases hy; exact h.copy cap x cl limit
  | dup x cl => cases hy; exact h.dupTree cap x cl
  | print x pieces => cases hy; exact h.print cap um x pieces
  | nest d calls => cases hy; exact h.nest cap d calls
  | chain d calls => cases hy; exact h.chain cap d calls
  | nodeCreate self d dest =>
    simp only [Plain.exec, Req.exec, hal] at hy ⊢
    split at hy
    · rename_i ha
      cases hy
      rw [if_pos ha, NodeMut.create, adopt_place]
      exact h.createInsert cap d _
    · rename_i ha
      cases hy
      rw [if_neg ha]; exact h.sim _
  | tryAdopt self x dest =>
    simp only [Plain.exec, Req.exec, hal] at hy ⊢
    split at hy
    · rename_i ha
      rw [if_pos ha, NodeMut.tryAdopt, adopt_place]
      exact h.insert x _ hy
    · rename_i ha
      cases hy
      rw [if_neg ha]; exact h.sim _
  | adopt self x dest =>
    simp only [Plain.exec, Req.exec, hal] at hy ⊢
    split at hy
    · rename_i ha
      rw [if_pos ha]
      obtain ⟨z, hz, rfl⟩ := Option.map_eq_some_iff.1 hy
      have := h.insert x (adoptPlace self dest) hz
      obtain ⟨h1, s', h2⟩ := this
      unfold NodeMut.adopt NodeMut.tryAdopt
      rw [adopt_place, M.run_bind]
      change (Ans.ofRes Ans.ofExcept (Forest.onHier (Hier.insert x (adoptPlace self dest)) f)).2 = _ at h1
      change Abs _ (Ans.ofRes Ans.ofExcept (Forest.onHier (Hier.insert x (adoptPlace self dest)) f)).1 _ at h2
      generalize Forest.onHier (Hier.insert x (adoptPlace self dest)) f = w at h1 h2
      cases w with
      | ok a g =>
        cases a with
        | ok u => exact ⟨by rw [← h1]; rfl, s', h2⟩
        | error e => exact ⟨by rw [← h1]; rfl, s', h2⟩
      | fail e g =>
        cases e with
        | panic m => exact ⟨by rw [← h1]; rfl, s', h2⟩
        | diverge => exact ⟨by rw [← h1]; rfl, s', h2⟩
    · rename_i ha
      cases hy
      rw [if_neg ha]; exact h.sim _
  | _ => cases hr

end Plain
end Treena
