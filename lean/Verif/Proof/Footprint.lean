import Verif.Proof.Bfs
import Verif.Proof.Cost
import Verif.Spec.Footprint
/-! Which records the iterators read. -/
set_option autoImplicit false

namespace Treena
open Hier

variable {T U : Type} {f : Forest T} {g : Forest U} {s : Shape} {h h' : Hier}

/-! ### Congruence of the step functions -/

theorem travNbr_congr {x : Nat} (hx : h'.neighbors x = h.neighbors x) : travNbr h' x = travNbr h x := by
  unfold travNbr; rw [hx]

theorem lastChild_congr {nb : Neighbors} (hc : ∀ c, nb.first = some c → h'.neighbors c = h.neighbors c) :
    nb.lastChild h' = nb.lastChild h := by
  have : nb.firstLastChild h' = nb.firstLastChild h := by
    unfold Neighbors.firstLastChild Neighbors.firstChild
    cases nb.isAlive with
    | false => rfl
    | true =>
      cases e : nb.first with
      | none => rfl
      | some c => simp [hc c e]
  unfold Neighbors.lastChild; rw [this]

theorem firstLastChild_congr {nb : Neighbors} (hc : ∀ c, nb.first = some c → h'.neighbors c = h.neighbors c) :
    nb.firstLastChild h' = nb.firstLastChild h := by
  unfold Neighbors.firstLastChild Neighbors.firstChild
  cases nb.isAlive with
  | false => rfl
  | true =>
    cases e : nb.first with
    | none => rfl
    | some c => simp [hc c e]

theorem prevSibling_congr {nb : Neighbors} (hc : ∀ c, nb.prevCyc = some c → h'.neighbors c = h.neighbors c) :
    nb.prevSibling h' = nb.prevSibling h := by
  unfold Neighbors.prevSibling
  cases e : nb.prevCyc with
  | none => rfl
  | some c => simp only [hc c e]

theorem travNbr_inv {x : Nat} {nb : Neighbors} (e : travNbr h x = .ok nb) : h.neighbors x = some nb := by
  unfold travNbr at e
  cases e' : h.neighbors x with
  | none => rw [e'] at e; simp [expect] at e
  | some n => rw [e'] at e; simp [expect] at e; rw [e]

theorem dft_stepFwd_congr {e : Ev Nat} (hx : h'.neighbors e.node = h.neighbors e.node) :
    Dft.stepFwd h' e = Dft.stepFwd h e := by
  cases e <;> (replace hx := travNbr_congr hx; simp only [Ev.node] at hx; simp only [Dft.stepFwd, hx])

theorem shallow_stepFwd_congr {mx : Option Nat} {e : Ev Nat × Nat} (hx : h'.neighbors e.1.node = h.neighbors e.1.node) :
    Shallow.stepFwd h' mx e = Shallow.stepFwd h mx e := by
  obtain ⟨e, d⟩ := e
  cases e <;> (replace hx := travNbr_congr hx; simp only [Ev.node] at hx; simp only [Shallow.stepFwd, hx])

theorem dft_stepBack_congr {e : Ev Nat} (hx : h'.neighbors e.node = h.neighbors e.node)
    (hc : ∀ x nb c, e = .cls x → h.neighbors x = some nb → nb.first = some c → h'.neighbors c = h.neighbors c)
    (ho : ∀ x nb c, e = .opn x → h.neighbors x = some nb → nb.prevCyc = some c → h'.neighbors c = h.neighbors c) :
    Dft.stepBack h' e = Dft.stepBack h e := by
  cases e with
  | cls x =>
    replace hx := travNbr_congr hx
    simp only [Ev.node] at hx
    simp only [Dft.stepBack, hx]
    cases e1 : travNbr h x with
    | error e => rfl
    | ok nb => simp only [lastChild_congr fun c e => hc x nb c rfl (travNbr_inv e1) e]
  | opn x =>
    replace hx := travNbr_congr hx
    simp only [Ev.node] at hx
    simp only [Dft.stepBack, hx]
    cases e1 : travNbr h x with
    | error e => rfl
    | ok nb => simp only [prevSibling_congr fun c e => ho x nb c rfl (travNbr_inv e1) e]

theorem shallow_stepBack_congr {mx : Option Nat} {e : Ev Nat × Nat} (hx : h'.neighbors e.1.node = h.neighbors e.1.node)
    (hc : ∀ x d nb c, e = (.cls x, d) → some d ≠ mx → h.neighbors x = some nb → nb.first = some c →
      h'.neighbors c = h.neighbors c)
    (ho : ∀ x d nb c, e = (.opn x, d) → h.neighbors x = some nb → nb.prevCyc = some c →
      h'.neighbors c = h.neighbors c) :
    Shallow.stepBack h' mx e = Shallow.stepBack h mx e := by
  obtain ⟨e, d⟩ := e
  cases e with
  | cls x =>
    replace hx := travNbr_congr hx
    simp only [Ev.node] at hx
    simp only [Shallow.stepBack, hx]
    by_cases hd : some d = mx
    · simp only [if_pos hd]
    · simp only [if_neg hd]
      cases e1 : travNbr h x with
      | error e => rfl
      | ok nb => simp only [lastChild_congr fun c e => hc x d nb c rfl hd (travNbr_inv e1) e]
  | opn x =>
    replace hx := travNbr_congr hx
    simp only [Ev.node] at hx
    simp only [Shallow.stepBack, hx]
    cases e1 : travNbr h x with
    | error e => rfl
    | ok nb => simp only [prevSibling_congr fun c e => ho x d nb c rfl (travNbr_inv e1) e]

theorem sib_stepFwd_congr {x : Nat} (hx : h'.neighbors x = h.neighbors x) :
    Siblings.stepFwd h' x = Siblings.stepFwd h x := by
  unfold Siblings.stepFwd; rw [travNbr_congr hx]

theorem sib_stepBack_congr {x : Nat} (hx : h'.neighbors x = h.neighbors x)
    (ho : ∀ nb c, h.neighbors x = some nb → nb.prevCyc = some c → h'.neighbors c = h.neighbors c) :
    Siblings.stepBack h' x = Siblings.stepBack h x := by
  unfold Siblings.stepBack
  rw [travNbr_congr hx]
  cases e1 : travNbr h x with
  | error e => rfl
  | ok nb => simp only [prevSibling_congr fun c e => ho nb c (travNbr_inv e1) e]

theorem Walk.transfer {ι : Type} {idOf : ι → Nat} {sF sB sF' sB' : ι → R (Option ι)} {L : List ι}
    (w : Walk f idOf sF sB L) (h1 : ∀ i ∈ L, sF' i = sF i) (h2 : ∀ i ∈ L.tail, sB' i = sB i)
    (ha : ∀ i ∈ L, g.isAlive (idOf i) = f.isAlive (idOf i)) : Walk g idOf sF' sB' L where
  nodup := w.nodup
  alive := fun i hi => by rw [ha i hi, w.alive i hi]
  chain := w.chain.imp_of_mem_tail_imp fun u v hu hv ⟨e1, e2⟩ => ⟨by rw [h1 u hu, e1], by rw [h2 v hv, e2]⟩

/-! ### Records of a shape -/

theorem record (hm : Models f s) {x : Nat} (hx : s.alive x = true) : f.hier.neighbors x = some (s.link x) := by
  rw [neighbors_live ((hm.agrees.live_iff hm.valid x).2 hx), hm.agrees.get_alive hx]

theorem link_first_mem {x c : Nat} (h : (s.link x).first = some c) : c ∈ s.kids x := by
  simp only [Shape.link, Shape.first] at h
  exact List.mem_of_mem_head? h

theorem link_prevCyc_mem (hv : s.Valid) {x p c : Nat} (hp : s.parent x = some p)
    (h : (s.link x).prevCyc = some c) : c ∈ s.kids p := by
  simp only [Shape.link, Shape.prev] at h
  rw [Shape.sibs_child hp] at h
  cases e : (before (s.kids p) x).getLast? with
  | none => rw [e] at h; simp at h; exact List.mem_of_getLast? h
  | some a =>
    rw [e] at h; simp at h; subst h
    have h1 := List.mem_of_getLast? e
    have h2 := before_after ((hv.mem_kids x p).2 hp)
    rw [← h2]; simp [h1]

theorem hier_isAlive_neighbors (h : Hier) (x : Nat) : h.isAlive x = (h.neighbors x).isSome := by
  rw [isAlive_eq, neighbors_eq]
  cases (h.get x).isAlive <;> rfl

theorem forest_isAlive_data (f : Forest T) (x : Nat) : f.isAlive x = (f.getData x).isSome := by
  unfold Forest.isAlive Forest.getData
  cases f.data[x]? with
  | none => rfl
  | some d => rfl

namespace SameAt
variable {A B : Nat → Prop}

theorem isAlive (sa : SameAt A f g) {y : Nat} (hy : A y) : g.isAlive y = f.isAlive y := by
  rw [forest_isAlive_data, forest_isAlive_data, sa.data y hy]

theorem hierAlive (sa : SameAt A f g) {y : Nat} (hy : A y) : g.hier.isAlive y = f.hier.isAlive y := by
  rw [hier_isAlive_neighbors, hier_isAlive_neighbors, sa.links y hy]

theorem mono (sa : SameAt A f g) (h : ∀ y, B y → A y) : SameAt B f g :=
  ⟨fun y hy => sa.links y (h y hy), fun y hy => sa.data y (h y hy)⟩

end SameAt

theorem sameAt_scramble (f : Forest T) (keep : Nat → Bool) (junk : Nat → Neighbors) :
    SameAt (fun y => keep y = true) f (f.scramble keep junk) where
  links := fun y hy => by
    simp only [Hier.neighbors, Forest.scramble, List.getElem?_mapIdx, hy, if_true, Option.map_id']
  data := fun y hy => by
    simp only [Forest.getData, Forest.scramble, List.getElem?_mapIdx, hy, if_true, Option.map_id']

/-! ### Levels -/
namespace Tree
variable {α : Type}

mutual
theorem mem_devents_level : ∀ (t : Tree α) (b : Nat) (e : Ev α × Nat), e ∈ t.devents b → e.1.node ∈ t.level (e.2 - b)
  | .node x ts, b, e, he => by
    simp only [devents, List.mem_cons, List.mem_append, List.not_mem_nil, or_false] at he
    rcases he with rfl | he | rfl
    · rw [Nat.sub_self]; simp [level, Ev.node]
    · have h1 := deventsL_depth ts (b + 1) e he
      have h2 := mem_deventsL_level ts (b + 1) e he
      rw [show e.2 - b = (e.2 - (b + 1)) + 1 by omega, level]
      exact h2
    · rw [Nat.sub_self]; simp [level, Ev.node]
theorem mem_deventsL_level : ∀ (ts : List (Tree α)) (b : Nat) (e : Ev α × Nat), e ∈ deventsL b ts →
    e.1.node ∈ levelL (e.2 - b) ts
  | [], _, _, he => by simp [deventsL] at he
  | t :: ts, b, e, he => by
    simp only [deventsL, List.mem_append] at he
    simp only [levelL, List.mem_append]
    exact he.imp (mem_devents_level t b e) (mem_deventsL_level ts b e)
end

theorem level_subs (d : Nat) (t : Tree α) : t.level (d + 1) = levelL d t.subs := by cases t; rfl

mutual
theorem level_kids {kids : Nat → List Nat} : ∀ (t : Tree Nat) (d x c : Nat), IsTree kids t → x ∈ t.level d →
    c ∈ kids x → c ∈ t.level (d + 1)
  | .node r ts, 0, x, c, ht, hx, hc => by
    simp only [level, List.mem_singleton] at hx
    subst hx
    rw [ht.1] at hc
    rw [level_subs, levelL_zero]; exact hc
  | .node r ts, d + 1, x, c, ht, hx, hc => by
    simp only [level] at hx ⊢
    exact levelL_kids ts d x c ht.2 hx hc
theorem levelL_kids {kids : Nat → List Nat} : ∀ (ts : List (Tree Nat)) (d x c : Nat), IsForest kids ts → x ∈ levelL d ts →
    c ∈ kids x → c ∈ levelL (d + 1) ts
  | [], _, _, _, _, hx, _ => by simp [levelL] at hx
  | t :: ts, d, x, c, ht, hx, hc => by
    simp only [levelL, List.mem_append] at hx ⊢
    exact hx.imp (fun h => level_kids t d x c ht.1 h hc) (fun h => levelL_kids ts d x c ht.2 h hc)
end

mutual
theorem level_parent {kids : Nat → List Nat} : ∀ (t : Tree Nat) (d x : Nat), IsTree kids t → x ∈ t.level (d + 1) →
    ∃ p, p ∈ t.level d ∧ x ∈ kids p
  | .node r ts, 0, x, ht, hx => by
    rw [level_subs, levelL_zero] at hx
    exact ⟨r, by simp [level], by rw [ht.1]; exact hx⟩
  | .node r ts, d + 1, x, ht, hx => by
    simp only [level] at hx ⊢
    exact levelL_parent ts d x ht.2 hx
theorem levelL_parent {kids : Nat → List Nat} : ∀ (ts : List (Tree Nat)) (d x : Nat), IsForest kids ts →
    x ∈ levelL (d + 1) ts → ∃ p, p ∈ levelL d ts ∧ x ∈ kids p
  | [], _, _, _, hx => by simp [levelL] at hx
  | t :: ts, d, x, ht, hx => by
    simp only [levelL, List.mem_append] at hx ⊢
    rcases hx with h | h
    · obtain ⟨p, h1, h2⟩ := level_parent t d x ht.1 h; exact ⟨p, .inl h1, h2⟩
    · obtain ⟨p, h1, h2⟩ := levelL_parent ts d x ht.2 h; exact ⟨p, .inr h1, h2⟩
end

mutual
theorem level_preorder : ∀ (t : Tree α) (d : Nat) (x : α), x ∈ t.level d → x ∈ t.preorder
  | .node r ts, 0, x, hx => by simp only [level, List.mem_singleton] at hx; subst hx; simp [preorder]
  | .node r ts, d + 1, x, hx => by
    simp only [level] at hx; simp only [preorder, List.mem_cons]; exact .inr (levelL_preorder ts d x hx)
theorem levelL_preorder : ∀ (ts : List (Tree α)) (d : Nat) (x : α), x ∈ levelL d ts → x ∈ preorderL ts
  | [], _, _, hx => by simp [levelL] at hx
  | t :: ts, d, x, hx => by
    simp only [levelL, List.mem_append] at hx; simp only [preorderL, List.mem_append]
    exact hx.imp (level_preorder t d x) (levelL_preorder ts d x)
end

end Tree

/-! ### Shallow -/

theorem shallow_walk_at (hm : Models f s) {t : Tree Nat} (ht : Tree.IsTree s.kids t)
    (hx : s.alive t.root = true) {mx : Option Nat}
    (sa : SameAt (fun y => ∃ d, (∀ m, mx = some m → d ≤ m) ∧ y ∈ t.level d) f g) :
    ShWalk g mx (t.shallow mx) := by
  have hv := hm.valid
  have w := shallow_walk hm ht hx mx
  have hlev : ∀ e, e ∈ t.shallow mx → (∀ m, mx = some m → e.2 ≤ m) ∧ e.1.node ∈ t.level e.2 := by
    intro e he
    refine ⟨?_, ?_⟩
    · intro m hmx; subst hmx
      simpa using (List.mem_filter.1 he).2
    · simpa using Tree.mem_devents_level t 0 e ((Tree.shallow_sublist mx t).subset he)
  have hal : ∀ d y, y ∈ t.level d → s.alive y = true := fun d y hy =>
    Tree.mem_alive hv ht hx (Tree.level_preorder t d y hy)
  refine w.transfer (fun i hi => shallow_stepFwd_congr (sa.links _ ⟨_, hlev i hi⟩)) (fun i hi => ?_)
    (fun i hi => sa.isAlive ⟨_, hlev i hi⟩)
  have hi' := List.mem_of_mem_tail hi
  refine shallow_stepBack_congr (sa.links _ ⟨_, hlev i hi'⟩) ?_ ?_
  · rintro x d nb c rfl hd hn hc
    obtain ⟨h1, h2⟩ := hlev _ hi'
    simp only [Ev.node] at h1 h2
    rw [record hm (hal _ _ h2)] at hn; cases hn
    refine sa.links _ ⟨d + 1, fun m hmx => ?_, Tree.level_kids t d x c ht h2 (link_first_mem hc)⟩
    have := h1 m hmx
    have : d ≠ m := by rintro rfl; exact hd hmx.symm
    omega
  · rintro x d nb c rfl hn hc
    obtain ⟨h1, h2⟩ := hlev _ hi'
    simp only [Ev.node] at h1 h2
    rw [record hm (hal _ _ h2)] at hn; cases hn
    cases d with
    | zero =>
      exfalso
      have hr : x = t.root := by cases t; simpa [Tree.level, Tree.root] using h2
      subst hr
      have hnd := w.nodup
      have hh := (Tree.gev_shallow mx t).symm
      have hhd : (t.shallow mx).head? = some (.opn t.root, 0) := by rw [hh, Tree.head?_gev]
      cases hL : t.shallow mx with
      | nil => rw [hL] at hi; simp at hi
      | cons a l =>
        rw [hL] at hhd hi hnd
        simp at hhd; subst hhd
        exact (List.nodup_cons.1 hnd).1 hi
    | succ d =>
      obtain ⟨p, hp1, hp2⟩ := Tree.level_parent t d x ht h2
      have hpar := hv.kid_parent hp2
      exact sa.links _ ⟨d + 1, h1, Tree.level_kids t d p c ht hp1 (link_prevCyc_mem hv hpar hc)⟩

theorem shallow_start_at (um : Nat) {t : Tree Nat} (h1 : g.isAlive t.root = true) (h2 : g.hier.isAlive t.root = true)
    (md : Option Nat) :
    Forest.shallowDepthFirstTraverse um g t.root md =
      .ok (shallowSt (Shallow.collapseMax um md) (t.shallow (Shallow.collapseMax um md))) := by
  unfold Forest.shallowDepthFirstTraverse
  rw [iterNew_ok h1, shallowSt, ends_shallow]
  simp [Shallow.withToplevelAndMaxDepth, h2]

/-! ### Depth-first -/

theorem preorder_kids (hv : s.Valid) {t : Tree Nat} (ht : Tree.IsTree s.kids t) {x c : Nat} (hx : x ∈ t.preorder)
    (hc : c ∈ s.kids x) : c ∈ t.preorder := by
  rw [Tree.mem_preorder_iff hv ht] at hx ⊢
  exact .step (hv.kid_parent hc) hx

theorem preorder_parent (hv : s.Valid) {t : Tree Nat} (ht : Tree.IsTree s.kids t) {x : Nat} (hx : x ∈ t.preorder)
    (hne : x ≠ t.root) : ∃ p, s.parent x = some p ∧ p ∈ t.preorder := by
  rw [Tree.mem_preorder_iff hv ht] at hx
  cases hx with
  | refl => exact absurd rfl hne
  | step h1 h2 => exact ⟨_, h1, (Tree.mem_preorder_iff hv ht _).2 h2⟩

theorem dft_walk_at (hm : Models f s) {t : Tree Nat} (ht : Tree.IsTree s.kids t)
    (hx : s.alive t.root = true) (sa : SameAt (fun y => y ∈ t.preorder) f g) :
    Walk g Ev.node (Dft.stepFwd g.hier) (Dft.stepBack g.hier) t.events := by
  have hv := hm.valid
  have w := dft_walk hm ht hx
  refine w.transfer (fun i hi => dft_stepFwd_congr (sa.links _ (Tree.node_mem_preorder hi))) (fun i hi => ?_)
    (fun i hi => sa.isAlive (Tree.node_mem_preorder hi))
  have hi' := Tree.node_mem_preorder (List.mem_of_mem_tail hi)
  refine dft_stepBack_congr (sa.links _ hi') ?_ ?_
  · rintro x nb c rfl hn hc
    simp only [Ev.node] at hi'
    rw [record hm (Tree.mem_alive hv ht hx hi')] at hn; cases hn
    exact sa.links _ (preorder_kids hv ht hi' (link_first_mem hc))
  · rintro x nb c rfl hn hc
    simp only [Ev.node] at hi'
    rw [record hm (Tree.mem_alive hv ht hx hi')] at hn; cases hn
    have hne : x ≠ t.root := by
      rintro rfl
      have hnd := w.nodup
      have hhd : t.events.head? = some (.opn t.root) := by rw [← Tree.gev_events 0 t, Tree.head?_gev]
      cases hL : t.events with
      | nil => rw [hL] at hi; simp at hi
      | cons a l =>
        rw [hL] at hhd hi hnd
        simp at hhd; subst hhd
        exact (List.nodup_cons.1 hnd).1 hi
    obtain ⟨p, hp1, hp2⟩ := preorder_parent hv ht hi' hne
    exact sa.links _ (preorder_kids hv ht hp2 (link_prevCyc_mem hv hp1 hc))

theorem dft_start_at {t : Tree Nat} (h1 : g.isAlive t.root = true) (h2 : g.hier.isAlive t.root = true) :
    g.depthFirstTraverse t.root = .ok (ends t.events) := by
  unfold Forest.depthFirstTraverse
  rw [iterNew_ok h1, ends_events]
  simp [Dft.withToplevel, h2]

/-! ### Breadth-first -/

theorem neighbors_lt {x : Nat} {nb : Neighbors} (hn : h.neighbors x = some nb) : x < h.nbrs.length := by
  unfold Hier.neighbors at hn
  cases e : h.nbrs[x]? with
  | none => rw [e] at hn; simp at hn
  | some v => exact (List.getElem?_eq_some_iff.1 e).1

theorem count_le_at (hm : Models f s) {t : Tree Nat} (ht : Tree.IsTree s.kids t)
    (hx : s.alive t.root = true) (sa : SameAt (fun y => y ∈ t.preorder) f g) : t.count ≤ g.hier.nbrs.length := by
  rw [← Tree.length_preorder]
  refine nodup_length_le (Tree.preorder_nodup hm.valid t ht) fun y hy => ?_
  have := sa.links y hy
  rw [record hm (Tree.mem_alive hm.valid ht hx hy)] at this
  exact neighbors_lt this

theorem root_mem_preorder (t : Tree Nat) : t.root ∈ t.preorder := by cases t; simp [Tree.root, Tree.preorder]

theorem bft_ready_at (um : Nat) (hm : Models f s) {t : Tree Nat} (ht : Tree.IsTree s.kids t)
    (hx : s.alive t.root = true) (sa : SameAt (fun y => y ∈ t.preorder) f g) : BftReady um g t where
  walk := fun d => shallow_walk_at hm ht hx (sa.mono fun y ⟨d, _, hy⟩ => Tree.level_preorder t d y hy)
  fuel := fun mx d => by
    have h1 := Tree.length_shallow_le mx t
    have h2 := count_le_at hm ht hx sa
    have h4 : 2 * (g.hier.nbrs.length + 1) * 1 ≤ 2 * (g.hier.nbrs.length + 1) * (d + 1) :=
      Nat.mul_le_mul_left _ (by omega)
    unfold Bft.fuel; omega
  hierAlive := by rw [sa.hierAlive (root_mem_preorder t), hm.hierAlive, hx]
  isAlive := by rw [sa.isAlive (root_mem_preorder t), hm.isAlive, hx]

theorem pushChildren_at (hm : Models f s) (x : Nat) : ∀ (ts pre : List Nat) (fuel : Nat)
    (q : List ABft.QEv), s.kids x = pre ++ ts → ts.length ≤ fuel →
    (∀ a ∈ ts, g.hier.neighbors a = f.hier.neighbors a) →
    ABft.pushChildren g.hier fuel ts.head? q = .ok (q ++ ts.map .node) := by
  intro ts
  induction ts with
  | nil => intro pre fuel q _ _ _; cases fuel <;> simp [ABft.pushChildren]
  | cons a ts ih =>
    intro pre fuel q hk hf hs
    have hv := hm.valid
    have ha := hm.agrees
    have haa : s.alive a = true := hv.kid_alive (p := x) (by rw [hk]; simp)
    have hnx : s.next a = ts.head? := by
      cases ts with
      | nil => exact next_last hv hk
      | cons b ts => exact next_mid hv hk
    cases fuel with
    | zero => simp at hf
    | succ fuel =>
      simp only [List.head?_cons, ABft.pushChildren, hs a (by simp), neighbors_live ((ha.live_iff hv a).2 haa),
        expect_some, ha.nextSibling_get hv haa, hnx]
      rw [ih (pre ++ [a]) fuel _ (by rw [hk]; simp) (by simpa using hf) fun b hb => hs b (by simp [hb])]
      simp

/-- The nodes in the queue. -/
def QIn (A : Nat → Prop) (st : ABft.St) : Prop := ∀ y, ABft.QEv.node y ∈ st.events → A y

theorem abft_nextLoop_at (hm : Models f s) {A : Nat → Prop} (sa : SameAt A f g)
    (hal : ∀ y, A y → s.alive y = true) (hk : ∀ y, A y → ∀ c ∈ s.kids y, A c)
    (hlen : ∀ y, A y → (s.kids y).length ≤ g.hier.nbrs.length) : ∀ (fuel : Nat) (st : ABft.St), QIn A st →
    ABft.nextLoop g.hier fuel st = ABft.nextLoop f.hier fuel st ∧
      ∀ o st', ABft.nextLoop f.hier fuel st = .ok (o, st') → QIn A st' ∧ ∀ i, o = some i → A i.1
  | 0, _, _ => ⟨rfl, by intro o st' e; simp [ABft.nextLoop] at e⟩
  | fuel + 1, ⟨evs, dep⟩, hq => by
    rcases evs with _ | ⟨_ | _, rest⟩
    · exact ⟨rfl, by intro o st' e; simp only [ABft.nextLoop] at e; cases e; exact ⟨hq, by simp⟩⟩
    rotate_left
    · simp only [ABft.nextLoop]
      by_cases hr : rest.isEmpty = true
      · simp only [hr, if_true]
        refine ⟨trivial, ?_⟩
        intro o st' e; cases e; exact ⟨fun y hy => by simp at hy, by simp⟩
      · simp only [hr, Bool.false_eq_true, if_false]
        refine abft_nextLoop_at hm sa hal hk hlen fuel _ fun y hy => hq y ?_
        simpa using hy
    · rename_i id
      have hid : A id := hq id (by simp)
      have hx := hal id hid
      have ha := hm.agrees
      have hv := hm.valid
      have l1 : (s.kids id).length ≤ f.hier.loopFuel := by
        have := kids_length_le hv id; unfold Hier.loopFuel; rw [ha.1]; omega
      have l2 : (s.kids id).length ≤ g.hier.loopFuel := by
        have := hlen id hid; unfold Hier.loopFuel; omega
      simp only [ABft.nextLoop, sa.links id hid, neighbors_live ((ha.live_iff hv id).2 hx), expect_some,
        ha.firstChild_get hv hx]
      rw [pushChildren_at hm id _ [] _ rest (by simp) l2 fun a h => sa.links a (hk id hid a h),
        pushChildren_ok hm id _ [] _ rest (by simp) l1]
      refine ⟨rfl, ?_⟩
      intro o st' e; cases e
      refine ⟨fun y hy => ?_, fun i hi => by cases hi; exact hid⟩
      simp only [List.mem_append, List.mem_map] at hy
      rcases hy with hy | ⟨c, hc, e⟩
      · exact hq y (by simp [hy])
      · cases e; exact hk id hid _ hc

/-! ### Siblings and ancestors -/

theorem sib_walk_at (hm : Models f s) {p : Nat} (sa : SameAt (fun y => y ∈ s.kids p) f g) : SibWalk g (s.kids p) := by
  have hv := hm.valid
  have w := kids_walk hm p
  refine w.transfer (fun i hi => sib_stepFwd_congr (sa.links _ hi)) (fun i hi => ?_) (fun i hi => sa.isAlive hi)
  have hi' := List.mem_of_mem_tail hi
  refine sib_stepBack_congr (sa.links _ hi') ?_
  intro nb c hn hc
  rw [record hm (hv.kid_alive hi')] at hn; cases hn
  exact sa.links _ (link_prevCyc_mem hv (hv.kid_parent hi') hc)

theorem children_start_at (hm : Models f s) {x : Nat} (hx : s.alive x = true)
    (sa : SameAt (fun y => y = x ∨ y ∈ s.kids x) f g) : g.children x = .ok (ends (s.kids x)) := by
  have h0 := children_start hm hx
  rw [← h0]
  unfold Forest.children
  rw [iterNew_ok (by rw [sa.isAlive (.inl rfl), hm.isAlive, hx]), iterNew_ok (by rw [hm.isAlive, hx])]
  unfold Siblings.withParent
  rw [sa.links x (.inl rfl), record hm hx]
  simp only [expect_some]
  exact firstLastChild_congr fun c hc => sa.links c (.inr (link_first_mem hc))

/-- The nodes looked at for the siblings of `x`: its siblings and its parent. -/
def SibRow (s : Shape) (x y : Nat) : Prop := y ∈ s.sibs x ∨ s.parent x = some y

theorem SibRow.self (hv : s.Valid) (x : Nat) : SibRow s x x := .inl (hv.mem_sibs x)

theorem sibs_walk_at (hm : Models f s) {x : Nat} (hx : s.alive x = true) (sa : SameAt (SibRow s x) f g) :
    SibWalk g (s.sibs x) := by
  cases e : s.parent x with
  | none =>
    rw [Shape.sibs_root e]
    exact ⟨by simp, by simp, fun i hi => by
      simp at hi; subst hi; rw [sa.isAlive (.self hm.valid _), hm.isAlive, hx]⟩
  | some p =>
    rw [Shape.sibs_child e]
    exact sib_walk_at hm (sa.mono fun y hy => .inl (by rw [Shape.sibs_child e]; exact hy))

theorem following_start_at (hm : Models f s) {x : Nat} (hx : s.alive x = true) (sa : SameAt (SibRow s x) f g) :
    g.followingSiblingsOrSelf x = .ok (ends (x :: after (s.sibs x) x)) := by
  have hv := hm.valid
  rw [← following_start hm hx]
  unfold Forest.followingSiblingsOrSelf
  rw [iterNew_ok (by rw [sa.isAlive (.self hv _), hm.isAlive, hx]), iterNew_ok (by rw [hm.isAlive, hx])]
  unfold Siblings.withFirstSibling
  rw [sa.links x (.self hv _), record hm hx]
  simp only [expect_some]
  cases e1 : (s.link x).getParent with
  | error e => rfl
  | ok po =>
    have hpo : po = s.parent x := by
      unfold Neighbors.getParent at e1
      split at e1
      · cases e1
      · cases e1; rfl
    subst hpo
    cases e : s.parent x with
    | none => rfl
    | some p =>
      have hp := (hv.parent_alive x p e).2
      simp only [Option.bind_some, sa.links p (.inr e), record hm hp]
      rw [lastChild_congr fun c hc => sa.links c (.inl (by rw [Shape.sibs_child e]; exact link_first_mem hc))]

theorem preceding_start_at (hm : Models f s) {x : Nat} (hx : s.alive x = true) (sa : SameAt (SibRow s x) f g) :
    g.precedingSiblingsOrSelf x = .ok (ends (before (s.sibs x) x ++ [x])) := by
  have hv := hm.valid
  rw [← preceding_start hm hx]
  unfold Forest.precedingSiblingsOrSelf
  rw [iterNew_ok (by rw [sa.isAlive (.self hv _), hm.isAlive, hx]), iterNew_ok (by rw [hm.isAlive, hx])]
  unfold Siblings.withLastSibling
  rw [sa.links x (.self hv _), record hm hx]
  simp only [expect_some]
  cases e1 : (s.link x).getParent with
  | error e => rfl
  | ok po =>
    have hpo : po = s.parent x := by
      unfold Neighbors.getParent at e1
      split at e1
      · cases e1
      · cases e1; rfl
    subst hpo
    cases e : s.parent x with
    | none => rfl
    | some p =>
      have hp := (hv.parent_alive x p e).2
      simp only [Option.bind_some, sa.links p (.inr e), record hm hp]

theorem following_walk_at (hm : Models f s) {x : Nat} (hx : s.alive x = true) (sa : SameAt (SibRow s x) f g) :
    SibWalk g (x :: after (s.sibs x) x) := by
  have w := sibs_walk_at hm hx sa
  rw [← sibs_split hm.valid x] at w
  exact w.right

theorem preceding_walk_at (hm : Models f s) {x : Nat} (hx : s.alive x = true) (sa : SameAt (SibRow s x) f g) :
    SibWalk g (before (s.sibs x) x ++ [x]) := by
  have w := sibs_walk_at hm hx sa
  rw [← sibs_split hm.valid x, ← List.singleton_append, ← List.append_assoc] at w
  exact w.left

theorem UpTo.next_at (hm : Models f s) {L : List Nat} (hu : UpTo s L) (sa : SameAt (fun y => y ∈ L) f g) :
    g.ancestorsNext L.head? = .ok (L.head?, L.tail.head?) := by
  rw [← (hu.next hm).1]
  unfold Forest.ancestorsNext
  cases L with
  | nil => rfl
  | cons a l =>
    have hn : Ancestors.next g.hier (some a) = Ancestors.next f.hier (some a) := by
      simp only [Ancestors.next, sa.links a (by simp)]
    simp only [List.head?_cons, hn]
    cases e : Ancestors.next f.hier (some a) with
    | error e => rfl
    | ok r =>
      obtain ⟨o, st⟩ := r
      have : o = some a := by
        simp only [Ancestors.next] at e
        split at e
        · cases e
        · split at e
          · cases e
          · cases e; rfl
      subst this
      simp only [Forest.emit, Forest.nodeAt, Forest.node, sa.isAlive (y := a) (by simp)]

end Treena
