import Verif.Proof.CreateInsert
import Verif.Spec.Builder
/-! The builders. -/
set_option autoImplicit false

namespace Treena
open Hier Shape
variable {T : Type} {f g : Forest T} {s s' : Shape}

theorem not_mem_fresh (hv : s.Valid) (q : Nat) : s.size ∉ s.kids q := fun hm => by
  have := hv.alive_lt _ (hv.kid_alive hm); omega

/-- A new node right after the last child is a new last child. -/
theorem addAfterLast_eq (hv : s.Valid) {p a : Nat} {l : List Nat} (hk : s.kids p = l ++ [a]) :
    s.addRoot.move s.size (.after a) = s.addChild' p := by
  have ha : s.parent a = some p := (hv.mem_kids a p).1 (by rw [hk]; simp)
  have hal : a ∉ l := by
    have := hv.kids_nodup p
    rw [hk, List.nodup_append] at this
    intro h; exact this.2.2 a h a (by simp) rfl
  unfold Shape.move
  have hpp : s.addRoot.placeParent (.after a) = some p := ha
  rw [hpp]
  simp only [Shape.attach, Shape.detach, Shape.addRoot, Place.put, Shape.addChild', Shape.mk.injEq, true_and,
    List.erase_of_not_mem (not_mem_fresh hv _), hk, before_eq hal, after_eq hal]
  refine ⟨?_, ?_⟩
  · funext z; unfold upd; split <;> rfl
  · simp

/-- A new first child of a leaf is a new last child. -/
theorem addFirst_eq (hv : s.Valid) {p : Nat} (hk : s.kids p = []) :
    s.addRoot.move s.size (.firstChildOf p) = s.addChild' p := by
  unfold Shape.move
  simp only [Shape.placeParent, Shape.attach, Shape.detach, Shape.addRoot, Place.put, Shape.addChild',
    Shape.mk.injEq, true_and, List.erase_of_not_mem (not_mem_fresh hv _), hk]
  refine ⟨?_, ?_⟩
  · funext z; unfold upd; split <;> rfl
  · simp

theorem addLast_eq (hv : s.Valid) (p : Nat) :
    s.addRoot.move s.size (.lastChildOf p) = s.addChild' p := hv.addChild_eq p

/-- Adding a node under a new node leaves the old ones alone. -/
theorem Grown.ofAddChild {g' : Forest T} (hg : Grown f s g s') {p : Nat} (hp : s.size ≤ p)
    {d : T} (h2 : Models g' (s'.addChild' p))
    (h3 : ∀ x, g'.getData x = if x = s'.size then some d else g.getData x) :
    Grown f s g' (s'.addChild' p) ∧ g'.data = g.data ++ [some d] := by
  have hsz := hg.size
  refine ⟨⟨h2, ?_, ?_, ?_, ?_, ?_⟩, ?_⟩
  · show s.size ≤ s'.size + 1; omega
  · intro x hx; rw [← hg.alive x hx]; simp only [Shape.addChild', upd]; rw [if_neg (by omega)]
  · intro x hx; rw [← hg.parent x hx]; simp only [Shape.addChild', upd]; rw [if_neg (by omega)]
  · intro x hx; rw [← hg.kids x hx]; simp only [Shape.addChild', upd]; rw [if_neg (by omega)]
  · intro x hx; rw [h3 x, if_neg (by omega), hg.data x hx]
  · apply data_push
    · rw [h2.dataLen, hg.models.dataLen]; rfl
    · intro x; rw [h3 x, hg.models.dataLen]

theorem Grown.refl (hm : Models f s) : Grown f s f s :=
  ⟨hm, Nat.le_refl _, fun _ _ => rfl, fun _ _ => rfl, fun _ _ => rfl, fun _ _ => rfl⟩

theorem Grown.addRoot {g' : Forest T} (hg : Grown f s g s') {d : T} (h2 : Models g' s'.addRoot)
    (h3 : ∀ x, g'.getData x = if x = s'.size then some d else g.getData x) :
    Grown f s g' s'.addRoot ∧ g'.data = g.data ++ [some d] := by
  have hsz := hg.size
  refine ⟨⟨h2, ?_, ?_, ?_, ?_, ?_⟩, ?_⟩
  · show s.size ≤ s'.size + 1; omega
  · intro x hx; rw [← hg.alive x hx]; simp only [Shape.addRoot, upd]; rw [if_neg (by omega)]
  · intro x hx; exact hg.parent x hx
  · intro x hx; exact hg.kids x hx
  · intro x hx; rw [h3 x, if_neg (by omega), hg.data x hx]
  · apply data_push
    · rw [h2.dataLen, hg.models.dataLen]; rfl
    · intro x; rw [h3 x, hg.models.dataLen]

/-! ### `NestTreeBuilder` -/

namespace Nest

theorem onForest_ok {α : Type} {m : M (Forest T) α} {b : Nest T} {a : α} {g : Forest T}
    (h : m b.forest = .ok a g) : onForest m b = .ok a ⟨g, b.root, b.current⟩ := by
  simp [onForest, M.zoom, h]
theorem onForest_fail {α : Type} {m : M (Forest T) α} {b : Nest T} {e : Fail} {g : Forest T}
    (h : m b.forest = .fail e g) : (onForest m b : Res (Nest T) α) = .fail e ⟨g, b.root, b.current⟩ := by
  simp [onForest, M.zoom, h]

theorem addChild_full {cap : Nat} {b : Nest T} (hm : Models b.forest s) (hcap : cap ≤ s.size) (d : T) :
    addChild cap d b = .fail overflow b := by
  have := createRoot_full hm hcap d
  unfold addChild
  simp only [M.run_bind, onForest_fail this]
  rfl

theorem addChild_spec {cap : Nat} {b : Nest T} (hg : Grown f s b.forest s') (hr : s.size ≤ b.root)
    (hra : s'.alive b.root = true) (hc : b.current = (s'.kids b.root).getLast?) (hcap : s'.size < cap) (d : T) :
    ∃ g', addChild cap d b = .ok () ⟨g', b.root, some s'.size⟩ ∧
      Grown f s g' (s'.addChild' b.root) ∧ g'.data = b.forest.data ++ [some d] := by
  have hm := hg.models
  have hv := hm.valid
  obtain ⟨f1, h1, hm1, hd1⟩ := createRoot_models hm hcap d
  have hkey : ∀ (dest : InsertAs), s'.alive dest.place.anchor = true →
      s'.placeParent dest.place = some b.root →
      s'.addRoot.move s'.size dest.place = s'.addChild' b.root →
      ∃ g', Forest.insert s'.size dest f1 = .ok (.ok ()) g' ∧ Models g' (s'.addChild' b.root) ∧
        g'.data = f1.data := by
    intro dest ha hpp he
    have hne : ∀ a, dest.place = .before a ∨ dest.place = .after a → s'.size ≠ a := by
      intro a h e
      have : dest.place.anchor = a := by rcases h with h | h <;> rw [h] <;> rfl
      rw [this, ← e, hv.dead_size] at ha; cases ha
    obtain ⟨g', a1, a2, a3⟩ := forest_insert_models hm1 (x := s'.size) (P := b.root) (d := dest)
      s'.addRoot_alive_self (addRoot_alive_of ha) hne hpp (ancOrSelf_fresh hv hra) (not_at_fresh hv ha)
    rw [he] at a2
    exact ⟨g', a1, a2, a3⟩
  have hfin : ∀ g', Models g' (s'.addChild' b.root) → g'.data = f1.data →
      Grown f s g' (s'.addChild' b.root) ∧ g'.data = b.forest.data ++ [some d] := by
    intro g' h2 h3
    refine hg.ofAddChild hr h2 (fun x => ?_)
    rw [← hd1 x]; unfold Forest.getData; rw [h3]
  cases hcur : b.current with
  | none =>
    rw [hcur] at hc
    have hk : s'.kids b.root = [] := List.getLast?_eq_none_iff.1 hc.symm
    obtain ⟨g', a1, a2, a3⟩ := hkey (.firstChildOf b.root) hra rfl (addFirst_eq hv hk)
    refine ⟨g', ?_, hfin g' a2 a3⟩
    have hon : onForest (Forest.insert s'.size (.firstChildOf b.root)) ⟨f1, b.root, none⟩ =
      .ok (.ok ()) ⟨g', b.root, none⟩ := onForest_ok a1
    have hp : place s'.size ⟨f1, b.root, none⟩ = .ok () ⟨g', b.root, none⟩ := by
      unfold place
      simp only [M.run_bind, hon, expectOk, M.run_pure]
    unfold addChild
    simp only [M.run_bind, onForest_ok h1, hcur, hp, M.run_modify]
  | some a =>
    rw [hcur] at hc
    have hk : s'.kids b.root = (s'.kids b.root).dropLast ++ [a] := by
      obtain ⟨l, hl⟩ := List.getLast?_eq_some_iff.1 hc.symm
      rw [hl]; simp
    have hpa : s'.parent a = some b.root := (hv.mem_kids a _).1 (by rw [hk]; simp)
    obtain ⟨g', a1, a2, a3⟩ := hkey (.nextSiblingOf a) (hv.parent_alive _ _ hpa).1 hpa (addAfterLast_eq hv hk)
    refine ⟨g', ?_, hfin g' a2 a3⟩
    have hon : onForest (Forest.insert s'.size (.nextSiblingOf a)) ⟨f1, b.root, some a⟩ =
      .ok (.ok ()) ⟨g', b.root, some a⟩ := onForest_ok a1
    have hp : place s'.size ⟨f1, b.root, (some a)⟩ = .ok () ⟨g', b.root, (some a)⟩ := by
      unfold place
      simp only [M.run_bind, hon, expectOk, M.run_pure]
    unfold addChild
    simp only [M.run_bind, onForest_ok h1, hcur, hp, M.run_modify]

end Nest

theorem Tree.graftL_append {α : Type} (p : Nat) : ∀ (ts us : List (Tree α)) (s : Shape),
    graftL s p (ts ++ us) = graftL (graftL s p ts) p us
  | [], us, s => by simp [graftL]
  | t :: ts, us, s => by simp [graftL, graftL_append p ts us]

theorem Tree.countL_append {α : Type} : ∀ (ts us : List (Tree α)), countL (ts ++ us) = countL ts + countL us
  | [], us => by simp [countL]
  | t :: ts, us => by simp [countL, countL_append ts us, Nat.add_assoc]

theorem Tree.numberL_append {α : Type} : ∀ (ts us : List (Tree α)) (b : Nat),
    numberL b (ts ++ us) = numberL b ts ++ numberL (b + countL ts) us
  | [], us, b => by simp [numberL, countL]
  | t :: ts, us, b => by simp [numberL, countL, numberL_append ts us, Nat.add_assoc]

/-- The builder `b` is between two calls. -/
structure NestOk (f : Forest T) (s : Shape) (b : Nest T) (s' : Shape) (cap : Nat) : Prop where
  grown : Grown f s b.forest s'
  root : s.size ≤ b.root
  alive : s'.alive b.root = true
  current : b.current = (s'.kids b.root).getLast?
  cap : s'.size ≤ cap

/-- The outcome `r` of calls on the builder `b` that were to build the plan `pl`. -/
def NestRuns (f : Forest T) (s : Shape) (b : Nest T) (s' : Shape) (cap : Nat)
    (pl : List (Tree T) × Except Fail Nat) (r : Res (Nest T) Unit) : Prop :=
  ∃ b', Grown f s b'.forest (Tree.graftL s' b.root pl.1) ∧
    b'.forest.data = b.forest.data ++ (Tree.preorderL pl.1).map some ∧
    match pl.2 with
    | .ok n => r = .ok () b' ∧ b'.root = b.root ∧ NestOk f s b' (Tree.graftL s' b.root pl.1) cap ∧
        n = cap - (Tree.graftL s' b.root pl.1).size
    | .error e => r = .fail e b'

open NestCall in
mutual
theorem nest_exec {cap : Nat} : ∀ (c : NestCall T) {b : Nest T} {s' : Shape}, NestOk f s b s' cap →
    NestRuns f s b s' cap (plan (cap - s'.size) c) (exec cap c b)
  | .addChild d, b, s', hb => by
    by_cases hcap : s'.size < cap
    · obtain ⟨g', h1, h2, h3⟩ := Nest.addChild_spec hb.grown hb.root hb.alive hb.current hcap d
      have hpl : plan (cap - s'.size) (.addChild d) = ([.node d []], .ok (cap - s'.size - 1)) := by
        rw [plan, if_neg (by omega)]
      have hgr : Tree.graftL s' b.root [Tree.node d []] = s'.addChild' b.root := by simp [Tree.graftL, Tree.graft]
      rw [hpl]
      refine ⟨⟨g', b.root, some s'.size⟩, ?_, ?_, ?_⟩
      · rw [hgr]; exact h2
      · simpa [Tree.preorderL, Tree.preorder] using h3
      · simp only [hgr]
        refine ⟨by rw [exec]; exact h1, trivial, ⟨h2, hb.root, ?_, ?_, ?_⟩, ?_⟩
        · have := (hb.grown.models.valid.alive_lt _ hb.alive)
          simp only [Shape.addChild', upd]; rw [if_neg (by omega)]; exact hb.alive
        · simp [Shape.addChild', upd]
        · show s'.size + 1 ≤ cap; omega
        · show _ = cap - (s'.size + 1); omega
    · have h1 := Nest.addChild_full hb.grown.models (by omega : cap ≤ s'.size) d
      have hpl : plan (cap - s'.size) (.addChild d) = ([], .error overflow) := by
        rw [plan, if_pos (by omega)]
      rw [hpl]
      exact ⟨b, hb.grown, by simp [Tree.preorderL], by rw [exec]; exact h1⟩
  | .boom, b, s', hb => by
    rw [plan]
    exact ⟨b, hb.grown, by simp [Tree.preorderL], by rw [exec]; rfl⟩
  | .createTree d cs, b, s', hb => by
    by_cases hcap : s'.size < cap
    · obtain ⟨g', h1, h2, h3⟩ := Nest.addChild_spec hb.grown hb.root hb.alive hb.current hcap d
      have hbk : b.root < s'.size := hb.grown.models.valid.alive_lt _ hb.alive
      have hsz : (s'.addChild' b.root).size = s'.size + 1 := rfl
      have hkn : (s'.addChild' b.root).kids s'.size = [] := by
        simp only [Shape.addChild', upd]; rw [if_neg (by omega)]
        exact hb.grown.models.valid.fresh _ (Nat.le_refl _)
      have hok : NestOk f s ⟨g', s'.size, none⟩ (s'.addChild' b.root) cap :=
        ⟨h2, hb.grown.size, by simp [Shape.addChild', upd], by simp only [hkn]; rfl, by rw [hsz]; omega⟩
      obtain ⟨b2, k1, k2, k3⟩ := nest_execL cs hok
      have hpl : plan (cap - s'.size) (.createTree d cs) =
          ([.node d (planL (cap - (s'.size + 1)) cs).1], (planL (cap - (s'.size + 1)) cs).2) := by
        rw [plan, if_neg (by omega), Nat.sub_sub]
      rw [hsz] at k1 k2 k3
      have hgr : Tree.graftL s' b.root [Tree.node d (planL (cap - (s'.size + 1)) cs).1] =
          Tree.graftL (s'.addChild' b.root) s'.size (planL (cap - (s'.size + 1)) cs).1 := by
        simp [Tree.graftL, Tree.graft]
      have hex : exec cap (.createTree d cs) b = match execL cap cs ⟨g', s'.size, none⟩ with
          | .ok () b2 => .ok () ⟨b2.forest, b.root, some s'.size⟩
          | .fail e b2 => .fail e b2 := by
        rw [exec]
        unfold Nest.createTree
        simp only [M.run_bind, h1, M.read, expect_some, M.run_modify]
        cases execL cap cs ⟨g', s'.size, none⟩ <;> rfl
      rw [hpl]
      have hdat : b2.forest.data = b.forest.data ++
          (Tree.preorderL [Tree.node d (planL (cap - (s'.size + 1)) cs).1]).map some := by
        rw [k2, h3]; simp [Tree.preorderL, Tree.preorder]
      cases hpr : (planL (cap - (s'.size + 1)) cs).2 with
      | error e =>
        rw [hpr] at k3
        refine ⟨b2, by rw [hgr]; exact k1, hdat, ?_⟩
        simp only
        rw [hex, k3]
      | ok n =>
        rw [hpr] at k3
        obtain ⟨k3, k4, k5, k6⟩ := k3
        have hgs := Tree.graftL_spec (planL (cap - (s'.size + 1)) cs).1 (s'.addChild' b.root) s'.size
          h2.models.valid.fresh (by rw [hsz]; omega)
        refine ⟨⟨b2.forest, b.root, some s'.size⟩, by rw [hgr]; exact k1, hdat, ?_⟩
        simp only [hgr]
        refine ⟨by rw [hex, k3], trivial, ⟨k1, hb.root, ?_, ?_, k5.cap⟩, k6⟩
        · rw [hgs.2.2.1.alive _ (by rw [hsz]; simp only; omega)]
          simp only [Shape.addChild', upd]; rw [if_neg (by omega)]; exact hb.alive
        · simp only
          rw [hgs.2.2.1.kids _ (by rw [hsz]; omega) (by omega)]
          simp [Shape.addChild', upd]
    · have h1 := Nest.addChild_full hb.grown.models (by omega : cap ≤ s'.size) d
      have hpl : plan (cap - s'.size) (.createTree d cs) = ([], .error overflow) := by
        rw [plan, if_pos (by omega)]
      rw [hpl]
      refine ⟨b, hb.grown, by simp [Tree.preorderL], ?_⟩
      rw [exec]; unfold Nest.createTree
      simp only [M.run_bind, h1]
theorem nest_execL {cap : Nat} : ∀ (cs : List (NestCall T)) {b : Nest T} {s' : Shape}, NestOk f s b s' cap →
    NestRuns f s b s' cap (planL (cap - s'.size) cs) (execL cap cs b)
  | [], b, s', hb => by
    rw [planL]
    exact ⟨b, hb.grown, by simp [Tree.preorderL], by rw [execL]; rfl, rfl, hb, rfl⟩
  | c :: cs, b, s', hb => by
    obtain ⟨b1, h1, h2, h3⟩ := nest_exec c hb
    rw [planL]
    have hex : execL cap (c :: cs) b = match exec cap c b with
        | .ok () b1 => execL cap cs b1
        | .fail e b1 => .fail e b1 := by
      rw [execL]; simp only [M.run_bind]; cases exec cap c b <;> rfl
    rcases hp : plan (cap - s'.size) c with ⟨ts, e | n⟩
    · rw [hp] at h1 h2 h3
      exact ⟨b1, h1, h2, by simp only at h3 ⊢; rw [hex, h3]⟩
    · rw [hp] at h1 h2 h3
      simp only at h1 h2 h3 ⊢
      obtain ⟨h3, h4, h5, h6⟩ := h3
      obtain ⟨b2, k1, k2, k3⟩ := nest_execL cs h5
      rw [h4] at k1 k3
      rw [← h6] at k1 k2 k3
      refine ⟨b2, ?_, ?_, ?_⟩
      · simp only [Tree.graftL_append]; exact k1
      · rw [k2, h2]; simp [Tree.preorderL_append]
      · simp only [Tree.graftL_append]
        cases hpr : (planL n cs).2 with
        | error e => rw [hpr] at k3; simp only at k3 ⊢; rw [hex, h3]; exact k3
        | ok n' =>
          rw [hpr] at k3; simp only at k3 ⊢
          obtain ⟨k3, k4, k5, k6⟩ := k3
          exact ⟨by rw [hex, h3]; exact k3, k4, k5, k6⟩
end

/-- A tree grown below a new root. -/
theorem planted {d : T} {ts : List (Tree T)} (hm : Models f s)
    (hg : Grown f s g (Tree.graftL s.addRoot s.size ts))
    (hd : g.data = f.data ++ (d :: Tree.preorderL ts).map some) :
    Planted f s (.node d ts) g (Tree.graftL s.addRoot s.size ts) := by
  have hv := hm.valid.addRoot
  have hsz : s.addRoot.size = s.size + 1 := rfl
  obtain ⟨h1, h2, h3, h4, h5, h6⟩ := Tree.graftL_spec ts s.addRoot s.size hv.fresh (by rw [hsz]; omega)
  rw [hsz] at h1 h3 h4 h5 h6
  have hk : s.addRoot.kids s.size = [] := hm.valid.fresh _ (Nat.le_refl _)
  refine ⟨hg, ?_, ?_, ?_, ?_, ?_⟩
  · rw [h1, Tree.count]; omega
  · simp only [Tree.number, Tree.IsTree]
    exact ⟨by rw [h4, hk]; rfl, h5⟩
  · rw [h3.parent _ (by omega)]; exact hm.valid.dead_parent hm.valid.dead_size
  · intro x hx hx2
    by_cases e : x = s.size
    · subst e; rw [h3.alive _ (by omega)]; exact s.addRoot_alive_self
    · exact h6 x (by omega) hx2
  · rw [hd, Tree.preorder]

open NestCall in
theorem nestBuild_spec (hm : Models f s) (cap : Nat) (d : T) (cs : List (NestCall T)) :
    (cap ≤ s.size ∧ nestBuild cap d cs f = .fail overflow f) ∨
    (s.size < cap ∧ ∃ g s', Planted f s (.node d (planL (cap - s.size - 1) cs).1) g s' ∧
      nestBuild cap d cs f = match (planL (cap - s.size - 1) cs).2 with
        | .ok _ => .ok s.size g
        | .error e => .fail e g) := by
  by_cases hcap : s.size < cap
  · right
    refine ⟨hcap, ?_⟩
    obtain ⟨f1, h1, hm1, hd1⟩ := createRoot_models hm hcap d
    have hg1 := (Grown.refl hm).addRoot hm1 hd1
    have hk : s.addRoot.kids s.size = [] := hm.valid.fresh _ (Nat.le_refl _)
    have hok : NestOk f s ⟨f1, s.size, none⟩ s.addRoot cap :=
      ⟨hg1.1, Nat.le_refl _, s.addRoot_alive_self, by simp only [hk]; rfl, by show s.size + 1 ≤ cap; omega⟩
    obtain ⟨b', k1, k2, k3⟩ := nest_execL cs hok
    have hsz : cap - s.addRoot.size = cap - s.size - 1 := by show cap - (s.size + 1) = _; omega
    rw [hsz] at k1 k2 k3
    have hnb : nestBuild cap d cs f = match execL cap cs ⟨f1, s.size, none⟩ with
        | .ok () b' => .ok b'.getRoot b'.forest
        | .fail e b' => .fail e b'.forest := by
      unfold nestBuild Nest.new
      rw [h1]
      dsimp only
      cases execL cap cs ⟨f1, s.size, none⟩ <;> rfl
    refine ⟨b'.forest, _, planted hm k1 ?_, ?_⟩
    · rw [k2]; simp only [hg1.2]; simp
    · cases hpr : (planL (cap - s.size - 1) cs).2 with
      | error e => rw [hpr] at k3; simp only at k3; rw [hnb, k3]
      | ok n =>
        rw [hpr] at k3; simp only at k3; rw [hnb, k3.1]
        simp [Nest.getRoot, k3.2.1]
  · left
    refine ⟨by omega, ?_⟩
    unfold nestBuild Nest.new
    rw [createRoot_full hm (by omega) d]
    rfl

open NestCall in
mutual
theorem plan_trees {T : Type} : ∀ (c : NestCall T) (b : Nat), calm c = true → Tree.countL (trees c) ≤ b →
    plan b c = (trees c, .ok (b - Tree.countL (trees c)))
  | .addChild d, b, hc, hb => by
    simp only [trees, Tree.countL, Tree.count] at hb ⊢
    rw [plan, if_neg (by omega)]
  | .createTree d cs, b, hc, hb => by
    simp only [trees, Tree.countL, Tree.count] at hb ⊢
    rw [calm] at hc
    rw [plan, if_neg (by omega), planL_trees cs (b - 1) hc (by omega)]
    simp only [Prod.mk.injEq, Except.ok.injEq, true_and]
    omega
  | .boom, b, hc, hb => by simp [calm] at hc
theorem planL_trees {T : Type} : ∀ (cs : List (NestCall T)) (b : Nat), calmL cs = true →
    Tree.countL (treesL cs) ≤ b → planL b cs = (treesL cs, .ok (b - Tree.countL (treesL cs)))
  | [], b, hc, hb => by simp [planL, treesL, Tree.countL]
  | c :: cs, b, hc, hb => by
    rw [calmL, Bool.and_eq_true] at hc
    rw [treesL, Tree.countL_append] at hb
    rw [planL, plan_trees c b hc.1 (by omega), treesL, Tree.countL_append]
    simp only
    rw [planL_trees cs _ hc.2 (by omega)]
    simp only [Prod.mk.injEq, Except.ok.injEq, true_and]
    omega
end

mutual
theorem plan_ok {T : Type} : ∀ (c : NestCall T) (b b' : Nat), (c.plan b).2 = .ok b' → (c.plan b).1 = c.trees
  | .addChild d, b, b', h => by
    rw [NestCall.plan] at h ⊢
    split at h
    · cases h
    · rename_i hb; rw [if_neg hb, NestCall.trees]
  | .createTree d cs, b, b', h => by
    rw [NestCall.plan] at h ⊢
    split at h
    · cases h
    · rename_i hb; rw [if_neg hb, NestCall.trees]
      simp only at h ⊢
      rw [planL_ok cs _ _ h]
  | .boom, b, b', h => by rw [NestCall.plan] at h; cases h
theorem planL_ok {T : Type} : ∀ (cs : List (NestCall T)) (b b' : Nat), (NestCall.planL b cs).2 = .ok b' →
    (NestCall.planL b cs).1 = NestCall.treesL cs
  | [], b, b', h => rfl
  | c :: cs, b, b', h => by
    rw [NestCall.planL] at h ⊢
    have h1 := plan_ok c b
    cases hp : c.plan b with
    | mk ts r =>
      rw [hp] at h h1
      cases r with
      | error e => cases h
      | ok b1 =>
        simp only at h h1 ⊢
        rw [planL_ok cs _ _ h, h1 b1 rfl, NestCall.treesL]
end

/-! ### `ChainTreeBuilder` -/

namespace Chain

theorem onForest_ok {α : Type} {m : M (Forest T) α} {b : Chain T} {a : α} {g : Forest T}
    (h : m b.forest = .ok a g) : onForest m b = .ok a ⟨g, b.root, b.current⟩ := by
  simp [onForest, M.zoom, h]
theorem onForest_fail {α : Type} {m : M (Forest T) α} {b : Chain T} {e : Fail} {g : Forest T}
    (h : m b.forest = .fail e g) : (onForest m b : Res (Chain T) α) = .fail e ⟨g, b.root, b.current⟩ := by
  simp [onForest, M.zoom, h]

theorem child_ok {cap : Nat} {d : T} {b : Chain T} {n : Nat} {g : Forest T}
    (h : Forest.createInsert cap d (.lastChildOf b.current) b.forest = .ok n g) :
    child cap d b = .ok () ⟨g, b.root, n⟩ := by
  unfold child
  simp only [M.run_bind, onForest_ok h, M.run_modify]
theorem child_fail {cap : Nat} {d : T} {b : Chain T} {e : Fail} {g : Forest T}
    (h : Forest.createInsert cap d (.lastChildOf b.current) b.forest = .fail e g) :
    child cap d b = .fail e ⟨g, b.root, b.current⟩ := by
  unfold child
  simp only [M.run_bind, onForest_fail h]
theorem sibling_ok {cap : Nat} {d : T} {b : Chain T} {n : Nat} {g : Forest T}
    (h : Forest.createInsert cap d (.nextSiblingOf b.current) b.forest = .ok n g) :
    sibling cap d b = .ok () ⟨g, b.root, n⟩ := by
  unfold sibling
  simp only [M.run_bind, onForest_ok h, M.run_modify]
theorem sibling_fail {cap : Nat} {d : T} {b : Chain T} {e : Fail} {g : Forest T}
    (h : Forest.createInsert cap d (.nextSiblingOf b.current) b.forest = .fail e g) :
    sibling cap d b = .fail e ⟨g, b.root, b.current⟩ := by
  unfold sibling
  simp only [M.run_bind, onForest_fail h]

theorem parentOfCurrent_eq {b : Chain T} (hm : Models b.forest s) (ha : s.alive b.current = true) :
    parentOfCurrent b = .ok (s.parent b.current) := by
  have hd := hm.describes
  unfold parentOfCurrent
  rw [hd.node, if_pos ha]
  simp only [expect_some]
  exact hd.parent _ ha

theorem parentOfCurrent_dead {b : Chain T} (hm : Models b.forest s) (ha : s.alive b.current = false) :
    parentOfCurrent b = .error (.panic "[consistency] nodes in the tree must be alive") := by
  unfold parentOfCurrent
  rw [hm.describes.node, ha]
  rfl

theorem tryParent_eq {b : Chain T} {o : Option Nat} (h : parentOfCurrent b = .ok o) :
    tryParent b = match (generalizing := false) o with
      | none => .ok false b
      | some p => .ok true ⟨b.forest, b.root, p⟩ := by
  unfold tryParent
  simp only [M.run_bind, M.read, h]
  cases o <;> rfl

theorem parent_eq {b : Chain T} {o : Option Nat} (h : parentOfCurrent b = .ok o) :
    Chain.parent b = match (generalizing := false) o with
      | none => .fail (.panic "[precondition] the current node should not be the root") b
      | some p => .ok () ⟨b.forest, b.root, p⟩ := by
  unfold Chain.parent
  simp only [M.run_bind, M.read, h]
  cases o <;> rfl

theorem tryParent_err {b : Chain T} {e : Fail} (h : parentOfCurrent b = .error e) : tryParent b = .fail e b := by
  unfold tryParent
  simp only [M.run_bind, M.read, h]
theorem parent_err {b : Chain T} {e : Fail} (h : parentOfCurrent b = .error e) : Chain.parent b = .fail e b := by
  unfold Chain.parent
  simp only [M.run_bind, M.read, h]

end Chain

/-- The frames describe the shape: `frame` has the finished subtrees and, if given, one more child `sub`. -/
def FrameOk (s' : Shape) (g : Frame T) (sub : Option Nat) : Prop :=
  s'.kids g.id = (Tree.numberL (g.id + 1) g.done).map Tree.root ++ sub.toList ∧
  Tree.IsForest s'.kids (Tree.numberL (g.id + 1) g.done)

/-- The ancestors of `sub`. -/
def RestOk (s' : Shape) (base : Nat) : Nat → List (Frame T) → Prop
  | sub, [] => sub = base ∧ s'.parent sub = none
  | sub, g :: r => s'.parent sub = some g.id ∧ sub = g.id + 1 + Tree.countL g.done ∧ FrameOk s' g (some sub) ∧
      RestOk s' base g.id r

/-- The data of the nodes up to the frames, in preorder. -/
def restData : List (Frame T) → List T
  | [] => []
  | g :: r => restData r ++ g.d :: Tree.preorderL g.done

/-- Everything about a cursor. -/
structure CursorOk (f : Forest T) (s : Shape) (c : Cursor T) (g : Forest T) (s' : Shape) : Prop where
  grown : Grown f s g s'
  size : s'.size = c.fresh
  top : FrameOk s' c.top none
  rest : RestOk s' s.size c.top.id c.rest
  alive : ∀ x, s.size ≤ x → x < s'.size → s'.alive x = true
  data : g.data = f.data ++ (restData (c.top :: c.rest)).map some

theorem Tree.countL_singleton {α : Type} (a : α) (ts : List (Tree α)) : countL [node a ts] = countL ts + 1 := by
  simp [countL, count]

theorem Tree.isForest_append {kids : Nat → List Nat} : ∀ (ts us : List (Tree Nat)),
    IsForest kids (ts ++ us) ↔ IsForest kids ts ∧ IsForest kids us
  | [], us => by simp [IsForest]
  | t :: ts, us => by simp [IsForest, isForest_append ts us, and_assoc]

theorem Tree.isForest_congr {kids kids' : Nat → List Nat} : ∀ (ts : List (Tree Nat)),
    (∀ y ∈ preorderL ts, kids y = kids' y) → IsForest kids ts → IsForest kids' ts
  | [], _, _ => trivial
  | t :: ts, h, ht => by
    simp only [preorderL, List.mem_append] at h
    exact ⟨isTree_congr t (fun y hy => h y (.inl hy)) ht.1, isForest_congr ts (fun y hy => h y (.inr hy)) ht.2⟩

theorem restOk_ge {s' : Shape} {base : Nat} : ∀ (r : List (Frame T)) (sub : Nat), RestOk s' base sub r → base ≤ sub
  | [], sub, h => Nat.le_of_eq h.1.symm
  | g :: r, sub, h => by have := restOk_ge r g.id h.2.2.2; have := h.2.1; omega

theorem restOk_lt {s' : Shape} {base : Nat} : ∀ (r : List (Frame T)) (sub : Nat), RestOk s' base sub r →
    ∀ g ∈ r, g.id < sub
  | g :: r, sub, h, g', hg' => by
    have h1 := h.2.1
    rcases List.mem_cons.1 hg' with rfl | hg'
    · omega
    · have := restOk_lt r g.id h.2.2.2 g' hg'; omega

/-- Closing the innermost frame. -/
theorem frameOk_close {s' : Shape} {g p : Frame T} (h : g.id = p.id + 1 + Tree.countL p.done)
    (hp : FrameOk s' p (some g.id)) (hg : FrameOk s' g none) :
    FrameOk s' ⟨p.id, p.d, p.done ++ [.node g.d g.done]⟩ none := by
  have hn : Tree.numberL (p.id + 1) (p.done ++ [Tree.node g.d g.done]) =
      Tree.numberL (p.id + 1) p.done ++ [Tree.node g.id (Tree.numberL (g.id + 1) g.done)] := by
    rw [Tree.numberL_append, ← h]; simp [Tree.numberL, Tree.number]
  unfold FrameOk at *
  simp only [hn, List.map_append, Tree.isForest_append, Tree.IsForest, Tree.IsTree, Option.toList_none,
    List.append_nil, and_true, Option.toList_some, List.map_cons, List.map_nil] at *
  exact ⟨hp.1, hp.2, hg⟩

theorem CursorOk.up {c c' : Cursor T} (h : CursorOk f s c g s') (hu : c.up = some c') : CursorOk f s c' g s' := by
  unfold Cursor.up at hu
  cases hr : c.rest with
  | nil => rw [hr] at hu; simp at hu
  | cons p r =>
    rw [hr] at hu; simp only [Option.some.injEq] at hu; subst hu
    have hrest := h.rest
    rw [hr] at hrest
    obtain ⟨h1, h2, h3, h4⟩ := hrest
    refine ⟨h.grown, ?_, frameOk_close h2 h3 h.top, h4, h.alive, ?_⟩
    · rw [h.size]; simp only [Cursor.fresh, Tree.countL_append, Tree.countL_singleton]; omega
    · rw [h.data, hr]; simp [restData, Tree.preorderL_append, Tree.preorderL, Tree.preorder]

theorem CursorOk.top_alive {c : Cursor T} (h : CursorOk f s c g s') : s'.alive c.top.id = true :=
  h.alive _ (restOk_ge _ _ h.rest) (by rw [h.size]; unfold Cursor.fresh; omega)

theorem frameOk_keep {s' : Shape} {g : Frame T} {o : Option Nat} {p : Nat} (h : FrameOk s' g o)
    (hp : p ≠ g.id) (hp2 : p < g.id + 1 ∨ g.id + 1 + Tree.countL g.done ≤ p) : FrameOk (s'.addChild' p) g o := by
  have hk : ∀ y, y ≠ p → (s'.addChild' p).kids y = s'.kids y := by
    intro y hy; simp only [Shape.addChild', upd]; rw [if_neg hy]
  refine ⟨by rw [hk _ hp.symm]; exact h.1, Tree.isForest_congr _ (fun y hy => (hk y ?_).symm) h.2⟩
  rw [Tree.preorder_numberL, List.mem_range'_1] at hy
  omega

theorem restOk_keep {s' : Shape} {base p : Nat} : ∀ (r : List (Frame T)) (sub : Nat), RestOk s' base sub r →
    sub ≤ p → sub < s'.size → RestOk (s'.addChild' p) base sub r
  | [], sub, h, hp, hs => by
    refine ⟨h.1, ?_⟩
    simp only [Shape.addChild', upd]; rw [if_neg (by omega)]; exact h.2
  | g :: r, sub, h, hp, hs => by
    obtain ⟨h1, h2, h3, h4⟩ := h
    refine ⟨?_, h2, frameOk_keep h3 (by omega) (by omega), restOk_keep r g.id h4 (by omega) (by omega)⟩
    simp only [Shape.addChild', upd]; rw [if_neg (by omega)]; exact h1

/-- Opening a new node below the current one. -/
theorem CursorOk.push {c : Cursor T} (h : CursorOk f s c g s') {g' : Forest T} {d : T}
    (h2 : Models g' (s'.addChild' c.top.id))
    (h3 : ∀ x, g'.getData x = if x = s'.size then some d else g.getData x) :
    CursorOk f s (c.push s'.size d) g' (s'.addChild' c.top.id) := by
  have hge := restOk_ge _ _ h.rest
  have hlt : c.top.id < s'.size := h.grown.models.valid.alive_lt _ h.top_alive
  have hg := h.grown.ofAddChild hge h2 h3
  have hsz : (s'.addChild' c.top.id).size = s'.size + 1 := rfl
  have hfk : (s'.addChild' c.top.id).kids s'.size = [] := by
    simp only [Shape.addChild', upd]; rw [if_neg (by omega)]
    exact h.grown.models.valid.fresh _ (Nat.le_refl _)
  refine ⟨hg.1, ?_, ?_, ⟨?_, ?_, ?_, ?_⟩, ?_, ?_⟩
  · rw [hsz]; simp [Cursor.push, Cursor.fresh, Tree.countL]
  · exact ⟨by simp [Cursor.push, hfk, Tree.numberL], by simp [Cursor.push, Tree.numberL, Tree.IsForest]⟩
  · simp [Cursor.push, Shape.addChild', upd]
  · exact h.size
  · obtain ⟨k1, k2⟩ := h.top
    refine ⟨?_, Tree.isForest_congr _ (fun y hy => ?_) k2⟩
    · show (s'.addChild' c.top.id).kids c.top.id = _
      simp only [Shape.addChild', upd, if_true, k1]; simp [Cursor.push]
    · rw [Tree.preorder_numberL, List.mem_range'_1] at hy
      simp only [Shape.addChild', upd]; rw [if_neg (by omega)]
  · exact restOk_keep _ _ h.rest (Nat.le_refl _) hlt
  · intro x hx hx2
    rw [hsz] at hx2
    simp only [Shape.addChild', upd]
    split
    · rfl
    · exact h.alive x hx (by omega)
  · rw [hg.2, h.data]; simp [Cursor.push, restData, Tree.preorderL]

theorem CursorOk.parent {c : Cursor T} (h : CursorOk f s c g s') :
    s'.parent c.top.id = c.up.map fun p => p.top.id := by
  unfold Cursor.up
  have := h.rest
  cases hr : c.rest with
  | nil => rw [hr] at this; simp [this.2]
  | cons p r => rw [hr] at this; simp [this.1]

/-- The current node is the last child of its parent. -/
theorem CursorOk.lastKid {c c' : Cursor T} (h : CursorOk f s c g s') (hu : c.up = some c') :
    ∃ l, s'.kids c'.top.id = l ++ [c.top.id] := by
  unfold Cursor.up at hu
  have hrest := h.rest
  cases hr : c.rest with
  | nil => rw [hr] at hu; simp at hu
  | cons p r =>
    rw [hr] at hu hrest; simp only [Option.some.injEq] at hu; subst hu
    exact ⟨_, hrest.2.2.1.1⟩

open Chain in
/-- One call. -/
theorem chain_exec {cap : Nat} {c : Cursor T} {b : Chain T} (h : CursorOk f s c b.forest s')
    (hb : b.current = c.top.id) (a : ChainCall T) :
    ∃ b' s'', b'.root = b.root ∧
      match c.step cap a with
      | some c' => ChainCall.exec cap a b = .ok () b' ∧ b'.current = c'.top.id ∧ CursorOk f s c' b'.forest s''
      | none => (∃ e, ChainCall.exec cap a b = .fail (.panic e) b') ∧ Grown f s b'.forest s'' := by
  have hm := h.grown.models
  have hv := hm.valid
  have hal : s'.alive b.current = true := by rw [hb]; exact h.top_alive
  have hpc := parentOfCurrent_eq hm hal
  have hpar : s'.parent b.current = c.up.map fun p => p.top.id := by rw [hb]; exact h.parent
  have hfr : c.fresh = s'.size := h.size.symm
  cases a with
  | child d =>
    simp only [Cursor.step, hfr, ChainCall.exec]
    by_cases hcap : s'.size < cap
    · rw [if_pos hcap]
      obtain ⟨g', h1, h2, h3⟩ := createInsert_models hm hcap d (dest := .lastChildOf b.current) (P := b.current) hal rfl
      have he : s'.addRoot.move s'.size (InsertAs.lastChildOf b.current).place = s'.addChild' c.top.id := by
        rw [← hb]; exact addLast_eq hv _
      rw [he] at h2
      exact ⟨⟨g', b.root, s'.size⟩, _, rfl, child_ok h1, rfl, h.push h2 h3⟩
    · rw [if_neg hcap]
      have h1 := createInsert_full' hm (by omega : cap ≤ s'.size) d (dest := .lastChildOf b.current)
        (hv.alive_lt _ hal)
      exact ⟨b, s', rfl, ⟨_, child_fail h1⟩, h.grown⟩
  | sibling d =>
    simp only [Cursor.step, hfr, ChainCall.exec]
    by_cases hcap : s'.size < cap
    · rw [if_pos hcap]
      cases hu : c.up with
      | none =>
        rw [hu] at hpar
        obtain ⟨msg, g', h1, h2, h3⟩ := createInsert_orphan hm hcap d (dest := .nextSiblingOf b.current)
          (hv.alive_lt _ hal) (.inr hpar)
        exact ⟨⟨g', b.root, b.current⟩, _, rfl, ⟨_, sibling_fail h1⟩, (h.grown.addRoot h2 h3).1⟩
      | some c' =>
        rw [hu] at hpar
        obtain ⟨g', h1, h2, h3⟩ := createInsert_models hm hcap d (dest := .nextSiblingOf b.current)
          (P := c'.top.id) hal hpar
        obtain ⟨l, hl⟩ := h.lastKid hu
        have he : s'.addRoot.move s'.size (InsertAs.nextSiblingOf b.current).place = s'.addChild' c'.top.id := by
          rw [hb]; exact addAfterLast_eq hv hl
        rw [he] at h2
        exact ⟨⟨g', b.root, s'.size⟩, _, rfl, sibling_ok h1, rfl, (h.up hu).push h2 h3⟩
    · rw [if_neg hcap]
      have h1 := createInsert_full' hm (by omega : cap ≤ s'.size) d (dest := .nextSiblingOf b.current)
        (hv.alive_lt _ hal)
      exact ⟨b, s', rfl, ⟨_, sibling_fail h1⟩, h.grown⟩
  | parent =>
    rw [hpar] at hpc
    have h1 := parent_eq hpc
    simp only [Cursor.step, ChainCall.exec]
    cases hu : c.up with
    | none => rw [hu] at h1; exact ⟨b, s', rfl, ⟨_, h1⟩, h.grown⟩
    | some c' => rw [hu] at h1; exact ⟨⟨b.forest, b.root, c'.top.id⟩, s', rfl, h1, rfl, h.up hu⟩
  | tryParent =>
    rw [hpar] at hpc
    have h1 := tryParent_eq hpc
    simp only [Cursor.step, ChainCall.exec, M.run_bind, h1]
    cases hu : c.up with
    | none => exact ⟨b, s', rfl, rfl, hb, h⟩
    | some c' => exact ⟨⟨b.forest, b.root, c'.top.id⟩, s', rfl, rfl, rfl, h.up hu⟩

/-- A sequence of calls. -/
theorem chain_execL {cap : Nat} : ∀ (cs : List (ChainCall T)) {c : Cursor T} {b : Chain T} {s' : Shape},
    CursorOk f s c b.forest s' → b.current = c.top.id →
    ∃ b' s'', b'.root = b.root ∧
      match c.steps cap cs with
      | some c' => ChainCall.execL cap cs b = .ok () b' ∧ b'.current = c'.top.id ∧ CursorOk f s c' b'.forest s''
      | none => (∃ e, ChainCall.execL cap cs b = .fail (.panic e) b') ∧ Grown f s b'.forest s''
  | [], c, b, s', h, hb => ⟨b, s', rfl, rfl, hb, h⟩
  | a :: cs, c, b, s', h, hb => by
    obtain ⟨b1, s1, h0, h1⟩ := chain_exec (cap := cap) h hb a
    have hex : ChainCall.execL cap (a :: cs) b = match ChainCall.exec cap a b with
        | .ok () b1 => ChainCall.execL cap cs b1
        | .fail e b1 => .fail e b1 := by
      rw [ChainCall.execL]; simp only [M.run_bind]; cases ChainCall.exec cap a b <;> rfl
    simp only [Cursor.steps]
    cases hs : c.step cap a with
    | none =>
      rw [hs] at h1
      obtain ⟨⟨e, h1⟩, h2⟩ := h1
      exact ⟨b1, s1, h0, ⟨e, by rw [hex, h1]⟩, h2⟩
    | some c1 =>
      rw [hs] at h1
      obtain ⟨h1, h2, h3⟩ := h1
      obtain ⟨b2, s2, k0, k1⟩ := chain_execL (cap := cap) cs h3 h2
      rw [hex, h1]
      exact ⟨b2, s2, by rw [k0, h0], k1⟩

theorem closeFrom_ok : ∀ (r : List (Frame T)) (t : Frame T), CursorOk f s ⟨t, r⟩ g s' →
    Planted f s (Cursor.closeFrom t r) g s'
  | [], t, h => by
    obtain ⟨h1, h2⟩ := h.rest
    simp only at h1 h2
    have hsz := h.size
    refine ⟨h.grown, ?_, ?_, by rw [← h1]; exact h2, h.alive, ?_⟩
    · simp only [Cursor.fresh] at hsz; rw [hsz, Cursor.closeFrom, Tree.count]; simp only [h1]; omega
    · rw [Cursor.closeFrom, Tree.number, Tree.IsTree, ← h1]
      exact ⟨by simpa using h.top.1, h.top.2⟩
    · rw [h.data]; simp [restData, Cursor.closeFrom, Tree.preorder]
  | p :: r, t, h => by
    rw [Cursor.closeFrom]
    exact closeFrom_ok r _ (h.up (by rfl))

/-- Ancestors of the current node. -/
theorem restOk_upPath {s' : Shape} {base : Nat} : ∀ (r : List (Frame T)) (sub : Nat), RestOk s' base sub r →
    UpPath s'.parent sub (sub :: r.map Frame.id)
  | [], sub, h => .root h.2
  | g :: r, sub, h => .step h.1 (restOk_upPath r g.id h.2.2.2)

end Treena
