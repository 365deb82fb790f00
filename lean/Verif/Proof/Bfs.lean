import Verif.Proof.Sibs
/-! Breadth-first traversers. -/

namespace Treena
open Hier

variable {T : Type} {f : Forest T} {s : Shape}

/-- A client calling `next` repeatedly, with an invariant relating state and remaining items. -/
theorem pull_inv {ι σ : Type} {next : σ → R (Option ι × σ)} {Inv : σ → List ι → Prop}
    (h1 : ∀ st L, Inv st L → ∃ st', next st = .ok (L.head?, st') ∧ Inv st' L.tail) (n : Nat) :
    ∀ st L, Inv st L → pull next n st = .ok (pulls L n) := by
  induction n with
  | zero => intro st L _; rfl
  | succ n ih =>
    intro st L hL
    obtain ⟨st', e, hi⟩ := h1 st L hL
    simp only [pull, e, ih _ _ hi, pulls_succ]

namespace Tree
variable {α : Type}

/-- The node opened at depth `d` by an event. -/
def openAt (d : Nat) (e : Ev α × Nat) : Option α :=
  if e.2 = d then (match e.1 with | .opn a => some a | .cls _ => none) else none

mutual
theorem filterMap_devents : ∀ (t : Tree α) (b d : Nat),
    (t.devents b).filterMap (openAt (b + d)) = t.level d
  | .node x ts, b, 0 => by
    have : (deventsL (b + 1) ts).filterMap (openAt (b + 0)) = [] := by
      rw [List.filterMap_eq_nil_iff]
      intro e he
      have := deventsL_depth ts (b + 1) e he
      unfold openAt; rw [if_neg (by omega)]
    simp only [devents, List.filterMap_cons, List.filterMap_append, this, level]
    simp [openAt]
  | .node x ts, b, d + 1 => by
    have := filterMap_deventsL ts (b + 1) d
    rw [show b + 1 + d = b + (d + 1) by omega] at this
    have h1 : openAt (b + (d + 1)) ((Ev.opn x, b) : Ev α × Nat) = none := by
      unfold openAt; rw [if_neg (by simp)]
    have h2 : openAt (b + (d + 1)) ((Ev.cls x, b) : Ev α × Nat) = none := by
      unfold openAt; rw [if_neg (by simp)]
    simp [devents, List.filterMap_append, level, this, h1, h2]
theorem filterMap_deventsL : ∀ (ts : List (Tree α)) (b d : Nat),
    (deventsL b ts).filterMap (openAt (b + d)) = levelL d ts
  | [], _, _ => by simp [deventsL, levelL]
  | t :: ts, b, d => by
    simp [deventsL, levelL, List.filterMap_append, filterMap_devents t b d, filterMap_deventsL ts b d]
end

theorem filterMap_shallow {mx : Option Nat} {d : Nat} (hmx : ∀ m, mx = some m → d ≤ m) (t : Tree α) :
    (t.shallow mx).filterMap (openAt d) = t.level d := by
  have h0 := filterMap_devents t 0 d
  rw [Nat.zero_add] at h0
  rw [← h0]
  unfold shallow
  split
  · rfl
  · rename_i m
    rw [List.filterMap_filter]
    congr 1
    funext e
    by_cases h : e.2 ≤ m
    · simp [h]
    · have := hmx m rfl
      simp only [h, decide_false, Bool.false_eq_true, if_false]
      unfold openAt; rw [if_neg (by omega)]

mutual
theorem level_nil_iff : ∀ (t : Tree α) (d : Nat), t.level d = [] ↔ t.height ≤ d
  | .node x ts, 0 => by simp [level, height]
  | .node x ts, d + 1 => by simp [level, height, levelL_nil_iff ts d]
theorem levelL_nil_iff : ∀ (ts : List (Tree α)) (d : Nat), levelL d ts = [] ↔ heightL ts ≤ d
  | [], d => by simp [levelL, heightL]
  | t :: ts, d => by simp [levelL, heightL, level_nil_iff t d, levelL_nil_iff ts d]; omega
end

/-- Level order from depth `d` on. -/
def bfsFrom (t : Tree α) (d : Nat) : List (α × Nat) :=
  (List.range' d (t.height - d)).flatMap fun d => (t.level d).map fun a => (a, d)

theorem bfsFrom_zero (t : Tree α) : t.bfsFrom 0 = t.bfs := by
  unfold bfsFrom bfs; rw [List.range_eq_range', Nat.sub_zero]

theorem bfsFrom_step (t : Tree α) (d : Nat) :
    t.bfsFrom d = (t.level d).map (fun a => (a, d)) ++ t.bfsFrom (d + 1) := by
  unfold bfsFrom
  by_cases h : t.height ≤ d
  · rw [(level_nil_iff t d).2 h, Nat.sub_eq_zero_of_le h, Nat.sub_eq_zero_of_le (by omega)]; rfl
  · rw [show t.height - d = (t.height - (d + 1)) + 1 by omega, List.range'_succ, List.flatMap_cons]

theorem bfsFrom_nil (t : Tree α) {d : Nat} (h : t.level d = []) : t.bfsFrom (d + 1) = [] := by
  rw [level_nil_iff] at h
  unfold bfsFrom; rw [Nat.sub_eq_zero_of_le (by omega)]; rfl

theorem length_shallow_le (mx : Option Nat) (t : Tree α) : (t.shallow mx).length ≤ 2 * t.count := by
  have := (shallow_sublist mx t).length_le
  have h2 : (t.devents 0).length = 2 * t.count := by
    rw [← length_events, ← map_fst_devents t 0, List.length_map]
  omega

end Tree

abbrev ShWalk (f : Forest T) (mx : Option Nat) (L : List (Ev Nat × Nat)) : Prop :=
  Walk f (fun i => i.1.node) (Shallow.stepFwd f.hier mx) (Shallow.stepBack f.hier mx) L

theorem nextInner_spec {mx : Option Nat} (d : Nat) : ∀ (fuel : Nat) (L : List (Ev Nat × Nat)),
    ShWalk f mx L → L.length < fuel →
    ∃ L', ShWalk f mx L' ∧ L'.length ≤ L.length ∧
      (L.filterMap (Tree.openAt d)).tail = L'.filterMap (Tree.openAt d) ∧
      Bft.nextInner f.hier d fuel (shallowSt mx L) =
        .ok ((L.filterMap (Tree.openAt d)).head?, shallowSt mx L') := by
  intro fuel
  induction fuel with
  | zero => intro L _ h; omega
  | succ fuel ih =>
    intro L w hl
    unfold Bft.nextInner
    rw [shallow_next_walk w]
    cases L with
    | nil => exact ⟨[], w, by simp, by simp, by simp⟩
    | cons e L =>
      obtain ⟨L', w', h1, h2, h3⟩ := ih L w.tail (by simpa using hl)
      obtain ⟨ev, d'⟩ := e
      by_cases hd : d' = d
      · subst hd
        cases ev with
        | opn a =>
          refine ⟨L, w.tail, by simp, ?_, ?_⟩
          · simp [Tree.openAt]
          · simp [Tree.openAt]
        | cls a =>
          refine ⟨L', w', by simp; omega, ?_, ?_⟩
          · simpa [Tree.openAt] using h2
          · simp only [List.head?_cons, List.tail_cons, if_true]
            rw [h3]; simp [Tree.openAt]
      · refine ⟨L', w', by simp; omega, ?_, ?_⟩
        · simpa [Tree.openAt, List.filterMap_cons, hd] using h2
        · simp only [List.head?_cons, List.tail_cons, if_neg hd]
          rw [h3]; simp [Tree.openAt, hd]

/-- States of the breadth-first traverser and the items it still has to emit. -/
def BftInv (um : Nat) (f : Forest T) (t : Tree Nat) (st : Bft.St) (rem : List (Nat × Nat)) : Prop :=
  (st.root = none ∧ rem = []) ∨
  ∃ L, ShWalk f (Shallow.collapseMax um (some st.depth)) L ∧ L.length < Bft.fuel f.hier st.depth ∧
    st.inner = shallowSt (Shallow.collapseMax um (some st.depth)) L ∧ st.root = some t.root ∧
    rem = (L.filterMap (Tree.openAt st.depth)).map (fun a => (a, st.depth)) ++ t.bfsFrom (st.depth + 1)

theorem collapse_le {um d : Nat} : ∀ m, Shallow.collapseMax um (some d) = some m → d ≤ m := by
  intro m h
  simp only [Shallow.collapseMax, Option.bind_some] at h
  split at h
  · cases h; exact Nat.le_refl _
  · cases h

theorem shallow_fuel (hm : Models f s) {t : Tree Nat} (ht : Tree.IsTree s.kids t)
    (hx : s.alive t.root = true) (mx : Option Nat) (d : Nat) : (t.shallow mx).length < Bft.fuel f.hier d := by
  have h1 := Tree.length_shallow_le mx t
  have h2 := Tree.count_le_size hm.valid ht hx
  have h3 := hm.agrees.1
  have h4 : 2 * (f.hier.nbrs.length + 1) * 1 ≤ 2 * (f.hier.nbrs.length + 1) * (d + 1) := Nat.mul_le_mul_left _ (by omega)
  unfold Bft.fuel; omega

theorem openAt_alive {mx : Option Nat} {d : Nat} {L : List (Ev Nat × Nat)} (w : ShWalk f mx L) :
    ∀ a ∈ L.filterMap (Tree.openAt d), f.isAlive a = true := by
  intro a ha
  rw [List.mem_filterMap] at ha
  obtain ⟨⟨ev, d'⟩, he, h⟩ := ha
  have := w.alive _ he
  unfold Tree.openAt at h
  split at h
  · cases ev with
    | opn b => simp at h; subst h; exact this
    | cls b => simp at h
  · cases h

/-- All that is needed to know of a forest in which the tree `t` is traversed in breadth-first order. -/
structure BftReady (um : Nat) (f : Forest T) (t : Tree Nat) : Prop where
  walk : ∀ d, ShWalk f (Shallow.collapseMax um (some d)) (t.shallow (Shallow.collapseMax um (some d)))
  fuel : ∀ mx d, (t.shallow mx).length < Bft.fuel f.hier d
  hierAlive : f.hier.isAlive t.root = true
  isAlive : f.isAlive t.root = true

theorem bft_ready (um : Nat) (hm : Models f s) {t : Tree Nat} (ht : Tree.IsTree s.kids t)
    (hx : s.alive t.root = true) : BftReady um f t :=
  ⟨fun _ => shallow_walk hm ht hx _, fun _ _ => shallow_fuel hm ht hx _ _, by rw [hm.hierAlive, hx],
    by rw [hm.isAlive, hx]⟩

theorem bft_next (um : Nat) {t : Tree Nat} (hg : BftReady um f t) (st : Bft.St) (rem : List (Nat × Nat))
    (hi : BftInv um f t st rem) :
    ∃ st', Bft.next um f.hier st = .ok (rem.head?, st') ∧ BftInv um f t st' rem.tail ∧
      ∀ i, rem.head? = some i → f.isAlive i.1 = true := by
  rcases hi with ⟨hr, rfl⟩ | ⟨L, w, hl, hin, hr, hrem⟩
  · exact ⟨st, by simp [Bft.next, hr], .inl ⟨hr, rfl⟩, by simp⟩
  · obtain ⟨L', w', h1, h2, h3⟩ := nextInner_spec st.depth _ L w hl
    have hal := openAt_alive (d := st.depth) w
    cases hys : L.filterMap (Tree.openAt st.depth) with
    | cons y ys =>
      rw [hys] at hrem h3 h2 hal
      refine ⟨{ st with inner := shallowSt (Shallow.collapseMax um (some st.depth)) L' }, ?_, .inr ⟨L', w', by simp only; omega, rfl, hr, ?_⟩, ?_⟩
      · simp only [Bft.next, hr, hin, h3, hrem]; simp
      · rw [hrem]; simp only [← h2]; simp
      · rw [hrem]; intro i h; simp at h; subst h; exact hal y (by simp)
    | nil =>
      rw [hys] at hrem h3
      have hw := hg.walk (st.depth + 1)
      obtain ⟨M, wM, g1, g2, g3⟩ := nextInner_spec (st.depth + 1) (Bft.fuel f.hier (st.depth + 1)) _ hw (hg.fuel _ _)
      have hlev := Tree.filterMap_shallow (d := st.depth + 1) (collapse_le (um := um)) t
      rw [hlev] at g2 g3
      have hst : Shallow.withToplevelAndMaxDepth um t.root f.hier (some (st.depth + 1)) =
          .ok (shallowSt (Shallow.collapseMax um (some (st.depth + 1)))
            (t.shallow (Shallow.collapseMax um (some (st.depth + 1))))) := by
        rw [shallowSt, ends_shallow]
        simp [Shallow.withToplevelAndMaxDepth, hg.hierAlive]
      have hrem' : rem = t.bfsFrom (st.depth + 1) := by rw [hrem]; simp
      cases hlv : t.level (st.depth + 1) with
      | nil =>
        rw [hlv] at g3
        have : rem = [] := by rw [hrem', Tree.bfsFrom_step, hlv, Tree.bfsFrom_nil t hlv]; rfl
        subst this
        refine ⟨{ inner := shallowSt (Shallow.collapseMax um (some (st.depth + 1))) M, root := none, depth := st.depth + 1 }, ?_, .inl ⟨rfl, rfl⟩, by simp⟩
        simp only [Bft.next, hr, hin, h3, hst, g3, List.head?_nil]
      | cons y ys =>
        rw [hlv] at g3 g2
        rw [Tree.bfsFrom_step, hlv] at hrem'
        refine ⟨{ inner := shallowSt (Shallow.collapseMax um (some (st.depth + 1))) M, root := some t.root, depth := st.depth + 1 }, ?_,
          .inr ⟨M, wM, ?_, rfl, rfl, ?_⟩, ?_⟩
        · simp only [Bft.next, hr, hin, h3, hst, g3, List.head?_nil, hrem']; simp
        · have := hg.fuel (Shallow.collapseMax um (some (st.depth + 1))) (st.depth + 1); simp only; omega
        · rw [hrem']; simp only [← g2]; simp
        · rw [hrem']; intro i h; simp at h; subst h
          have := openAt_alive (d := st.depth + 1) hw
          rw [hlev, hlv] at this
          exact this y (by simp)

theorem bftNext_inv_of (um : Nat) {t : Tree Nat} (hg : BftReady um f t) (st : Bft.St) (rem : List (Nat × Nat))
    (hi : BftInv um f t st rem) :
    ∃ st', Forest.bftNext um f st = .ok (rem.head?, st') ∧ BftInv um f t st' rem.tail := by
  obtain ⟨st', h1, h2, h3⟩ := bft_next um hg st rem hi
  refine ⟨st', ?_, h2⟩
  unfold Forest.bftNext; rw [h1]; exact emit_ok h3

theorem bftNext_inv (um : Nat) (hm : Models f s) {t : Tree Nat} (ht : Tree.IsTree s.kids t)
    (hx : s.alive t.root = true) (st : Bft.St) (rem : List (Nat × Nat))
    (hi : BftInv um f t st rem) :
    ∃ st', Forest.bftNext um f st = .ok (rem.head?, st') ∧ BftInv um f t st' rem.tail :=
  bftNext_inv_of um (bft_ready um hm ht hx) st rem hi

theorem bft_start_of (um : Nat) {t : Tree Nat} (hg : BftReady um f t) :
    ∃ st, Forest.breadthFirstTraverse um f t.root = .ok st ∧ BftInv um f t st t.bfs := by
  refine ⟨Bft.St.mk (shallowSt (Shallow.collapseMax um (some 0))
      (t.shallow (Shallow.collapseMax um (some 0)))) (some t.root) 0, ?_, ?_⟩
  · unfold Forest.breadthFirstTraverse
    rw [iterNew_ok hg.isAlive, shallowSt, ends_shallow]
    simp [Bft.withToplevel, Shallow.withToplevelAndMaxDepth, hg.hierAlive]
  · refine .inr ⟨_, hg.walk 0, hg.fuel _ _, rfl, rfl, ?_⟩
    rw [Tree.filterMap_shallow collapse_le, ← Tree.bfsFrom_zero, Tree.bfsFrom_step]

theorem bft_start (um : Nat) (hm : Models f s) {t : Tree Nat} (ht : Tree.IsTree s.kids t)
    (hx : s.alive t.root = true) :
    ∃ st, Forest.breadthFirstTraverse um f t.root = .ok st ∧ BftInv um f t st t.bfs :=
  bft_start_of um (bft_ready um hm ht hx)

/-! ### The allocating traverser -/

namespace Tree
variable {α : Type}

/-- Level order of a list of trees whose roots have depth `d`. -/
def bfsL (d : Nat) (ts : List (Tree α)) : List (α × Nat) :=
  (List.range (heightL ts)).flatMap fun i => (levelL i ts).map fun a => (a, d + i)

theorem levelL_append (i : Nat) (ts us : List (Tree α)) :
    levelL i (ts ++ us) = levelL i ts ++ levelL i us := by
  induction ts with
  | nil => simp [levelL]
  | cons t ts ih => simp [levelL, ih]

theorem heightL_append (ts us : List (Tree α)) : heightL (ts ++ us) = max (heightL ts) (heightL us) := by
  induction ts with
  | nil => simp [heightL]
  | cons t ts ih => simp [heightL, ih, Nat.max_assoc]

theorem levelL_zero (ts : List (Tree α)) : levelL 0 ts = ts.map root := by
  induction ts with
  | nil => simp [levelL]
  | cons t ts ih => cases t; simp [levelL, level, ih, root]

theorem levelL_succ (i : Nat) (ts : List (Tree α)) : levelL (i + 1) ts = levelL i (ts.flatMap subs) := by
  induction ts with
  | nil => simp [levelL]
  | cons t ts ih => cases t; simp [levelL, level, ih, subs, levelL_append]

theorem heightL_succ {ts : List (Tree α)} (h : ts ≠ []) : heightL ts = heightL (ts.flatMap subs) + 1 := by
  induction ts with
  | nil => exact absurd rfl h
  | cons t ts ih =>
    cases t with
    | node x us =>
      cases ts with
      | nil => simp [heightL, height, subs]
      | cons t' ts =>
        simp only [heightL, height, List.flatMap_cons, heightL_append, subs] at ih ⊢
        have := ih (by simp)
        omega

theorem bfsL_step {ts : List (Tree α)} (h : ts ≠ []) (d : Nat) :
    bfsL d ts = ts.map (fun t => (t.root, d)) ++ bfsL (d + 1) (ts.flatMap subs) := by
  unfold bfsL
  rw [heightL_succ h, List.range_succ_eq_map, List.flatMap_cons, List.flatMap_map, levelL_zero]
  congr 1
  · simp
  · congr 1; funext i; rw [levelL_succ]; congr 1; funext a; rw [show d + (i + 1) = d + 1 + i by omega]

theorem bfsL_single (t : Tree α) : bfsL 0 [t] = t.bfs := by
  unfold bfsL bfs; simp [heightL, levelL]

theorem bfsL_nil (d : Nat) : bfsL d ([] : List (Tree α)) = [] := by simp [bfsL, heightL]

theorem length_bfsL_ge (d : Nat) (ts : List (Tree α)) : ts.length ≤ (bfsL d ts).length := by
  cases ts with
  | nil => simp
  | cons t ts => rw [bfsL_step (by simp)]; simp

end Tree

theorem pushChildren_ok (hm : Models f s) (x : Nat) : ∀ (ts pre : List Nat) (fuel : Nat)
    (q : List ABft.QEv), s.kids x = pre ++ ts → ts.length ≤ fuel →
    ABft.pushChildren f.hier fuel ts.head? q = .ok (q ++ ts.map .node) := by
  intro ts
  induction ts with
  | nil => intro pre fuel q _ _; cases fuel <;> simp [ABft.pushChildren]
  | cons a ts ih =>
    intro pre fuel q hk hf
    have hv := hm.valid
    have ha := hm.agrees
    have haa : s.alive a = true := hv.kid_alive (p := x) (by rw [hk]; simp)
    have hnx : s.next a = ts.head? := by
      cases ts with
      | nil => exact next_last hv hk
      | cons b ts => exact next_mid hv hk
    cases fuel with
    | zero => simp at hf
    | succ fuel =>
      simp only [List.head?_cons, ABft.pushChildren, neighbors_live ((ha.live_iff hv a).2 haa),
        expect_some, ha.nextSibling_get hv haa, hnx]
      rw [ih (pre ++ [a]) fuel _ (by rw [hk]; simp) (by simpa using hf)]
      simp

theorem kids_length_le (hv : s.Valid) (x : Nat) : (s.kids x).length ≤ s.size :=
  nodup_length_le (hv.kids_nodup x) fun y hy => hv.alive_lt y (hv.kid_alive hy)

open ABft in
/-- States of the allocating breadth-first traverser and the items it still has to emit. -/
def ABftInv (s : Shape) (st : ABft.St) (rem : List (Nat × Nat)) : Prop :=
  (st.events = [] ∧ rem = []) ∨
  ∃ cur nxt : List (Tree Nat),
    (∀ t ∈ cur ++ nxt, Tree.IsTree s.kids t ∧ s.alive t.root = true) ∧
    st.events = cur.map (fun t => QEv.node t.root) ++ .incrementDepth :: nxt.map (fun t => .node t.root) ∧
    rem = cur.map (fun t => (t.root, st.depth)) ++ Tree.bfsL (st.depth + 1) (nxt ++ cur.flatMap Tree.subs)

theorem abft_emit_step (hm : Models f s) {t : Tree Nat} {cur nxt : List (Tree Nat)} (d fuel : Nat)
    (hall : ∀ u ∈ (t :: cur) ++ nxt, Tree.IsTree s.kids u ∧ s.alive u.root = true) :
    ∃ st', ABft.nextLoop f.hier (fuel + 1)
        { events := (t :: cur).map (fun t => ABft.QEv.node t.root) ++
            .incrementDepth :: nxt.map (fun t => .node t.root), depth := d } =
          .ok (some (t.root, d), st') ∧
      ABftInv s st' (cur.map (fun t => (t.root, d)) ++
        Tree.bfsL (d + 1) (nxt ++ (t :: cur).flatMap Tree.subs)) := by
  have hv := hm.valid
  have ha := hm.agrees
  obtain ⟨ht, hx⟩ := hall t (by simp)
  cases t with
  | node x ts =>
  simp only [Tree.root] at hx
  have hk : s.kids x = ts.map Tree.root := ht.1
  have hlen : (ts.map Tree.root).length ≤ f.hier.loopFuel := by
    rw [← hk]; have := kids_length_le hv x; unfold Hier.loopFuel; rw [ha.1]; omega
  refine ⟨{ events := _, depth := d }, ?_, .inr ⟨cur, nxt ++ ts, ?_, rfl, ?_⟩⟩
  · simp only [ABft.nextLoop, List.map_cons, List.cons_append, Tree.root,
      neighbors_live ((ha.live_iff hv x).2 hx), expect_some, ha.firstChild_get hv hx, hk]
    rw [pushChildren_ok hm x _ [] _ _ (by simpa using hk) hlen]
    simp
    intro a _; rfl
  · intro u hu
    simp only [List.mem_append] at hu
    rcases hu with hu | hu | hu
    · exact hall u (by simp [hu])
    · exact hall u (by simp [hu])
    · refine ⟨Tree.isForest_iff.1 ht.2 u hu, hv.kid_alive (p := x) ?_⟩
      rw [hk]; exact List.mem_map_of_mem hu
  · simp [Tree.subs]

theorem abft_next (hm : Models f s) (st : ABft.St) (rem : List (Nat × Nat))
    (hi : ABftInv s st rem) :
    ∃ st', ABft.next f.hier st = .ok (rem.head?, st') ∧ ABftInv s st' rem.tail ∧
      ∀ i, rem.head? = some i → f.isAlive i.1 = true := by
  obtain ⟨evs, d⟩ := st
  rcases hi with ⟨hr, rfl⟩ | ⟨cur, nxt, hall, hev, hrem⟩
  · simp only at hr; subst hr
    exact ⟨{ events := [], depth := d }, by simp [ABft.next, ABft.nextLoop], .inl ⟨rfl, rfl⟩, by simp⟩
  · simp only at hev hrem; subst hev
    cases cur with
    | cons t cur =>
      obtain ⟨st', h1, h2⟩ := abft_emit_step hm (nxt := nxt) d
        (((t :: cur).map (fun t : Tree Nat => ABft.QEv.node t.root) ++
            ABft.QEv.incrementDepth :: nxt.map (fun t : Tree Nat => ABft.QEv.node t.root)).length + 1) hall
      refine ⟨st', by rw [hrem]; exact h1, by rw [hrem]; exact h2, ?_⟩
      rw [hrem]; intro i h; simp at h; subst h
      rw [hm.isAlive]; exact (hall t (by simp)).2
    | nil =>
      simp only [List.map_nil, List.nil_append, List.flatMap_nil, List.append_nil] at hrem ⊢
      cases nxt with
      | nil =>
        rw [Tree.bfsL_nil] at hrem; subst hrem
        exact ⟨{ events := [], depth := d }, by simp [ABft.next, ABft.nextLoop], .inl ⟨rfl, rfl⟩, by simp⟩
      | cons t nxt =>
        rw [Tree.bfsL_step (by simp)] at hrem
        obtain ⟨st', h1, h2⟩ := abft_emit_step hm (t := t) (cur := nxt) (nxt := []) (d + 1)
          (nxt.length + 2) (by simpa using hall)
        refine ⟨st', ?_, by rw [hrem]; simpa using h2, ?_⟩
        · rw [hrem]
          simp only [ABft.next, List.map_cons, List.length_cons, List.length_map]
          unfold ABft.nextLoop
          simp only [List.isEmpty_cons, Bool.false_eq_true, if_false]
          simp only [List.map_nil, List.map_cons] at h1
          rw [h1]; rfl
        · rw [hrem]; intro i h; simp at h; subst h
          rw [hm.isAlive]; exact (hall t (by simp)).2

theorem abftNext_inv (hm : Models f s) (st : ABft.St) (rem : List (Nat × Nat))
    (hi : ABftInv s st rem) :
    ∃ st', f.abftNext st = .ok (rem.head?, st') ∧ ABftInv s st' rem.tail := by
  obtain ⟨st', h1, h2, h3⟩ := abft_next hm st rem hi
  refine ⟨st', ?_, h2⟩
  unfold Forest.abftNext; rw [h1]; exact emit_ok h3

theorem abft_start (hm : Models f s) {t : Tree Nat} (ht : Tree.IsTree s.kids t)
    (hx : s.alive t.root = true) :
    ∃ st, f.allocatingBreadthFirstTraverse t.root = .ok st ∧ ABftInv s st t.bfs := by
  refine ⟨{ events := [.node t.root, .incrementDepth], depth := 0 }, ?_, ?_⟩
  · unfold Forest.allocatingBreadthFirstTraverse
    rw [iterNew_ok (by rw [hm.isAlive, hx])]
    simp [ABft.withToplevel, hm.hierAlive, hx]
  · refine .inr ⟨[t], [], by simp [ht, hx], by simp, ?_⟩
    rw [← Tree.bfsL_single, Tree.bfsL_step (by simp)]; simp

theorem abft_sizeHint {st : ABft.St} {rem : List (Nat × Nat)} (hi : ABftInv s st rem) :
    (ABft.sizeHint st).1 ≤ rem.length ∧ ∀ u, (ABft.sizeHint st).2 = some u → rem.length ≤ u := by
  unfold ABft.sizeHint
  rcases hi with ⟨hr, rfl⟩ | ⟨cur, nxt, _, hev, hrem⟩
  · rw [hr]; simp
  · rw [hev]
    split
    · rename_i h
      have hc : cur = [] := by
        cases cur with
        | nil => rfl
        | cons _ _ => simp at h
      subst hc
      have hn : nxt = [] := by
        cases nxt with
        | nil => rfl
        | cons _ _ => simp at h
      subst hn
      rw [hrem]; simp [Tree.bfsL_nil]
    · rw [hrem]
      have := Tree.length_bfsL_ge (st.depth + 1) (nxt ++ cur.flatMap Tree.subs)
      simp at this ⊢; omega

/-- The hint of an iterator with nothing left is `(0, Some(0))`; of any other it is open-ended and at least one. -/
theorem abft_sizeHint_end {st : ABft.St} {rem : List (Nat × Nat)} (hi : ABftInv s st rem) :
    (rem = [] → ABft.sizeHint st = (0, some 0)) ∧
    (rem ≠ [] → 1 ≤ (ABft.sizeHint st).1 ∧ (ABft.sizeHint st).2 = none) := by
  unfold ABft.sizeHint
  rcases hi with ⟨hr, rfl⟩ | ⟨cur, nxt, _, hev, hrem⟩
  · rw [hr]; simp
  · rw [hev, hrem]
    cases cur with
    | cons t cur => simp; omega
    | nil =>
      cases nxt with
      | nil => simp [Tree.bfsL_nil]
      | cons t nxt =>
        have := Tree.length_bfsL_ge (st.depth + 1) (t :: nxt)
        refine ⟨fun h => ?_, fun _ => by simp⟩
        simp at h
        rw [h] at this
        simp at this

theorem abft_peek (hm : Models f s) {st : ABft.St} {rem : List (Nat × Nat)} (hi : ABftInv s st rem) :
    f.abftPeek st = .ok rem.head? := by
  obtain ⟨_, _, _, h3⟩ := abft_next hm st rem hi
  have key : ABft.peek st = .ok rem.head? := by
    rcases hi with ⟨hr, rfl⟩ | ⟨cur, nxt, _, hev, hrem⟩
    · simp [ABft.peek, hr]
    · unfold ABft.peek
      rw [hev, hrem]
      cases cur with
      | cons t cur => simp
      | nil =>
        cases nxt with
        | nil => simp [Tree.bfsL_nil]
        | cons t nxt => rw [List.flatMap_nil, List.append_nil, Tree.bfsL_step (by simp)]; simp
  unfold Forest.abftPeek
  rw [key]
  cases h : rem.head? with
  | none => rfl
  | some i => simp only [Forest.emitPeek, nodeAt_alive (h3 i h)]

end Treena
