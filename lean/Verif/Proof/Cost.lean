import Verif.Proof.Bfs
import Verif.Proof.Mach
import Verif.Proof.IterRaw
import Verif.Spec.Cost
/-! Step counts of the breadth-first iterators. -/
set_option autoImplicit false

namespace Treena
open Hier

variable {T : Type} {f : Forest T} {s : Shape}

/-! ### Forgetting the counts -/

@[simp] theorem Counted.value_after {α : Type} (n : Nat) (r : Counted α) : (Counted.after n r).value = r.value := by
  cases r <;> rfl

@[simp] theorem Counted.after_ok {α : Type} (n k : Nat) (a : α) :
    Counted.after n (.ok (a, k)) = .ok (a, n + k) := rfl

theorem nextInnerC_value (h : Hier) (d : Nat) : ∀ (fuel : Nat) (st : Shallow.St),
    (Bft.nextInnerC h d fuel st).value = Bft.nextInner h d fuel st
  | 0, _ => rfl
  | fuel + 1, st => by
    simp only [Bft.nextInnerC, Bft.nextInner]
    cases Shallow.next h st with
    | error e => rfl
    | ok r =>
      obtain ⟨o, st'⟩ := r
      cases o with
      | none => rfl
      | some e =>
        obtain ⟨ev, d'⟩ := e
        have ih := nextInnerC_value h d fuel st'
        by_cases hd : d' = d
        · cases ev with
          | opn a => simp [hd, Counted.value]
          | cls a => simpa [hd] using ih
        · simpa [hd] using ih

theorem bftNextC_value (um : Nat) (h : Hier) (st : Bft.St) : (Bft.nextC um h st).value = Bft.next um h st := by
  simp only [Bft.nextC, Bft.next]
  cases st.root with
  | none => rfl
  | some root =>
    simp only [← nextInnerC_value]
    cases Bft.nextInnerC h st.depth (Bft.fuel h st.depth) st.inner with
    | error e => rfl
    | ok r =>
      obtain ⟨⟨o, st'⟩, k⟩ := r
      cases o with
      | some id => rfl
      | none =>
        simp only [Counted.value]
        cases Shallow.withToplevelAndMaxDepth um root h (some (st.depth + 1)) with
        | error e => rfl
        | ok inner =>
          simp only
          cases Bft.nextInnerC h (st.depth + 1) (Bft.fuel h (st.depth + 1)) inner with
          | error e => rfl
          | ok r =>
            obtain ⟨⟨o, st'⟩, k⟩ := r
            cases o <;> rfl

theorem pushChildrenC_value (h : Hier) : ∀ (fuel : Nat) (o : Option Nat) (q : List ABft.QEv),
    (ABft.pushChildrenC h fuel o q).value = ABft.pushChildren h fuel o q
  | 0, none, _ => rfl
  | _ + 1, none, _ => rfl
  | 0, some _, _ => rfl
  | fuel + 1, some c, q => by
    simp only [ABft.pushChildrenC, ABft.pushChildren]
    cases expect (h.neighbors c) "[consistency] the node to be traversed must be alive" with
    | error e => rfl
    | ok nb =>
      simp only
      cases nb.nextSibling with
      | error e => rfl
      | ok n => simpa using pushChildrenC_value h fuel n (q ++ [.node c])

theorem nextLoopC_value (h : Hier) : ∀ (fuel : Nat) (st : ABft.St),
    (ABft.nextLoopC h fuel st).value = ABft.nextLoop h fuel st
  | 0, _ => rfl
  | fuel + 1, st => by
    obtain ⟨evs, dep⟩ := st
    rcases evs with _ | ⟨_ | _, rest⟩
    · rfl
    rotate_left
    · simp only [ABft.nextLoopC, ABft.nextLoop]
      by_cases hr : rest.isEmpty = true
      · simp [hr, Counted.value]
      · simpa [hr] using nextLoopC_value h fuel _
    · rename_i id
      simp only [ABft.nextLoopC, ABft.nextLoop]
      cases expect (h.neighbors id) "[consistency] the node to be traversed must be alive" with
      | error e => rfl
      | ok nb =>
        simp only
        cases nb.firstChild with
        | error e => rfl
        | ok fc =>
          simp only [← pushChildrenC_value]
          cases ABft.pushChildrenC h h.loopFuel fc rest <;> rfl

theorem emitC_value {ι σ : Type} (f : Forest T) (idOf : ι → Nat) (r : Counted (Option ι × σ)) :
    (f.emitC idOf r).value = f.emit idOf r.value := by
  cases r with
  | error e => rfl
  | ok p =>
    obtain ⟨p, k⟩ := p
    simp only [Forest.emitC, Counted.value]
    cases f.emit idOf (.ok p) <;> rfl

theorem pullC_value {ι σ : Type} (next : σ → Counted (Option ι × σ)) : ∀ (n : Nat) (st : σ),
    (pullC next n st).value = pull (fun st => (next st).value) n st
  | 0, _ => rfl
  | n + 1, st => by
    simp only [pullC, pull]
    cases next st with
    | error e => rfl
    | ok r =>
      obtain ⟨⟨o, st'⟩, k⟩ := r
      have ih := pullC_value next n st'
      simp only [Counted.value] at ih ⊢
      rw [← ih]
      cases pullC next n st' <;> rfl

/-! ### Potentials -/

/-- A client calling a counted `next`, with a potential that pays for the steps beyond the calls themselves. -/
theorem pullC_inv {ι σ : Type} {next : σ → Counted (Option ι × σ)} {Inv : σ → List ι → Nat → Prop}
    (h1 : ∀ st L p, Inv st L p → ∃ st' k p', next st = .ok ((L.head?, st'), 1 + k) ∧ Inv st' L.tail p' ∧ p = k + p' ∧
      (L = [] → p' = 0)) (n : Nat) :
    ∀ st L p, Inv st L p → ∃ k p', pullC next n st = .ok (pulls L n, n + k) ∧ p = k + p' ∧
      (L.length < n → p' = 0) := by
  induction n with
  | zero => intro st L p _; exact ⟨0, p, rfl, by omega, by omega⟩
  | succ n ih =>
    intro st L p hL
    obtain ⟨st', k, p', e, hi, hp, h0⟩ := h1 st L p hL
    obtain ⟨k', p'', e', hp', h0'⟩ := ih _ _ _ hi
    refine ⟨k + k', p'', ?_, by omega, ?_⟩
    · simp only [pullC, e, e', pulls_succ]
      congr 2; omega
    · intro hl
      cases L with
      | nil => have := h0 rfl; omega
      | cons a L => exact h0' (by simpa using hl)

namespace Tree
variable {α : Type}

/-- Steps of the levels after level `D`, each including the making of the inner traverser. -/
def levelSteps (um : Nat) (t : Tree α) (D : Nat) : Nat :=
  ((List.range' (D + 1) (t.height - D)).map fun d =>
    (t.shallow (Shallow.collapseMax um (some d))).length + 2).sum

theorem levelSteps_step (um : Nat) (t : Tree α) {D : Nat} (h : D < t.height) :
    t.levelSteps um D = (t.shallow (Shallow.collapseMax um (some (D + 1)))).length + 2 + t.levelSteps um (D + 1) := by
  unfold levelSteps
  rw [show t.height - D = (t.height - (D + 1)) + 1 by omega, List.range'_succ]
  simp

theorem levelSteps_end (um : Nat) (t : Tree α) {D : Nat} (h : t.height ≤ D) : t.levelSteps um D = 0 := by
  unfold levelSteps; rw [Nat.sub_eq_zero_of_le h]; simp

end Tree

theorem nextInnerC_spec {mx : Option Nat} (d : Nat) : ∀ (fuel : Nat) (L : List (Ev Nat × Nat)),
    ShWalk f mx L → L.length < fuel →
    ∃ L' k, ShWalk f mx L' ∧ L'.length ≤ L.length ∧
      (L.filterMap (Tree.openAt d)).tail = L'.filterMap (Tree.openAt d) ∧
      Bft.nextInnerC f.hier d fuel (shallowSt mx L) =
        .ok (((L.filterMap (Tree.openAt d)).head?, shallowSt mx L'), k) ∧
      (L.filterMap (Tree.openAt d) = [] → k = L.length + 1) ∧
      (L.filterMap (Tree.openAt d) ≠ [] → k + L'.length = L.length) := by
  intro fuel
  induction fuel with
  | zero => intro L _ h; omega
  | succ fuel ih =>
    intro L w hl
    unfold Bft.nextInnerC
    rw [shallow_next_walk w]
    cases L with
    | nil => exact ⟨[], 1, w, by simp, by simp, by simp, by simp, by simp⟩
    | cons e L =>
      obtain ⟨L', k, w', h1, h2, h3, h4, h5⟩ := ih L w.tail (by simpa using hl)
      obtain ⟨ev, d'⟩ := e
      have skip : Tree.openAt d (ev, d') = none →
          ∃ L' k, ShWalk f mx L' ∧ L'.length ≤ ((ev, d') :: L).length ∧
            (((ev, d') :: L).filterMap (Tree.openAt d)).tail = L'.filterMap (Tree.openAt d) ∧
            Counted.after 1 (Bft.nextInnerC f.hier d fuel (shallowSt mx L)) =
              .ok (((((ev, d') :: L).filterMap (Tree.openAt d)).head?, shallowSt mx L'), k) ∧
            (((ev, d') :: L).filterMap (Tree.openAt d) = [] → k = ((ev, d') :: L).length + 1) ∧
            (((ev, d') :: L).filterMap (Tree.openAt d) ≠ [] → k + L'.length = ((ev, d') :: L).length) := by
        intro ho
        refine ⟨L', 1 + k, w', by simp; omega, ?_, ?_, ?_, ?_⟩
        · simpa [List.filterMap_cons, ho] using h2
        · rw [h3]; simp [ho]
        · intro h; have := h4 (by simpa [List.filterMap_cons, ho] using h); simp; omega
        · intro h; have := h5 (by rw [List.filterMap_cons, ho] at h; exact h); simp; omega
      by_cases hd : d' = d
      · subst hd
        cases ev with
        | opn a =>
          refine ⟨L, 1, w.tail, by simp, ?_, ?_, ?_, ?_⟩
          · simp [Tree.openAt]
          · simp [Tree.openAt]
          · simp [Tree.openAt]
          · intro _; simp; omega
        | cls a =>
          simpa using skip (by simp [Tree.openAt])
      · simp only [List.head?_cons, List.tail_cons, if_neg hd]
        exact skip (by simp [Tree.openAt, hd])

/-- `BftInv` with a potential. -/
def BftPot (um : Nat) (f : Forest T) (t : Tree Nat) (st : Bft.St) (rem : List (Nat × Nat)) (p : Nat) : Prop :=
  (st.root = none ∧ rem = [] ∧ p = 0) ∨
  ∃ L, ShWalk f (Shallow.collapseMax um (some st.depth)) L ∧ L.length < Bft.fuel f.hier st.depth ∧
    st.inner = shallowSt (Shallow.collapseMax um (some st.depth)) L ∧ st.root = some t.root ∧
    rem = (L.filterMap (Tree.openAt st.depth)).map (fun a => (a, st.depth)) ++ t.bfsFrom (st.depth + 1) ∧
    st.depth < t.height ∧ p = L.length + 1 + t.levelSteps um st.depth

theorem bftC_next (um : Nat) (hm : Models f s) {t : Tree Nat} (ht : Tree.IsTree s.kids t)
    (hx : s.alive t.root = true) (st : Bft.St) (rem : List (Nat × Nat)) (p : Nat)
    (hi : BftPot um f t st rem p) :
    ∃ st' k p', Bft.nextC um f.hier st = .ok ((rem.head?, st'), k) ∧ BftPot um f t st' rem.tail p' ∧
      p = k + p' ∧ (rem = [] → p' = 0) ∧
      ∀ i, rem.head? = some i → f.isAlive i.1 = true := by
  rcases hi with ⟨hr, rfl, rfl⟩ | ⟨L, w, hl, hin, hr, hrem, hdep, hp⟩
  · exact ⟨st, 0, 0, by simp [Bft.nextC, hr], .inl ⟨hr, rfl, rfl⟩, rfl, fun _ => rfl, by simp⟩
  · obtain ⟨L', k, w', h1, h2, h3, h4, h5⟩ := nextInnerC_spec st.depth _ L w hl
    have hal := openAt_alive (d := st.depth) w
    cases hys : L.filterMap (Tree.openAt st.depth) with
    | cons y ys =>
      rw [hys] at hrem h3 h2 hal
      have hk := h5 (by rw [hys]; simp)
      refine ⟨{ st with inner := shallowSt (Shallow.collapseMax um (some st.depth)) L' }, k,
        L'.length + 1 + t.levelSteps um st.depth, ?_, .inr ⟨L', w', by simp only; omega, rfl, hr, ?_, hdep, rfl⟩,
        by omega, ?_, ?_⟩
      · simp only [Bft.nextC, hr, hin, h3, hrem]; simp
      · rw [hrem]; simp only [← h2]; simp
      · rw [hrem]; simp
      · rw [hrem]; intro i h; simp at h; subst h; exact hal y (by simp)
    | nil =>
      rw [hys] at hrem h3
      have hk := h4 hys
      have hw := shallow_walk hm ht hx (Shallow.collapseMax um (some (st.depth + 1)))
      obtain ⟨M, k', wM, g1, g2, g3, g4, g5⟩ := nextInnerC_spec (st.depth + 1) (Bft.fuel f.hier (st.depth + 1)) _ hw
        (shallow_fuel hm ht hx _ _)
      have hlev := Tree.filterMap_shallow (d := st.depth + 1) (collapse_le (um := um)) t
      rw [hlev] at g2 g3 g4 g5
      have hst : Shallow.withToplevelAndMaxDepth um t.root f.hier (some (st.depth + 1)) =
          .ok (shallowSt (Shallow.collapseMax um (some (st.depth + 1)))
            (t.shallow (Shallow.collapseMax um (some (st.depth + 1))))) := by
        rw [shallowSt, ends_shallow]
        simp [Shallow.withToplevelAndMaxDepth, hm.hierAlive, hx]
      have hrem' : rem = t.bfsFrom (st.depth + 1) := by rw [hrem]; simp
      have hstep := t.levelSteps_step um hdep
      cases hlv : t.level (st.depth + 1) with
      | nil =>
        rw [hlv] at g3
        have hk' := g4 hlv
        have : rem = [] := by rw [hrem', Tree.bfsFrom_step, hlv, Tree.bfsFrom_nil t hlv]; rfl
        subst this
        have hend := t.levelSteps_end um ((Tree.level_nil_iff t _).1 hlv)
        refine ⟨{ inner := shallowSt (Shallow.collapseMax um (some (st.depth + 1))) M, root := none, depth := st.depth + 1 },
          k + 1 + k', 0, ?_, .inl ⟨rfl, rfl, rfl⟩, by omega, fun _ => rfl, by simp⟩
        simp only [Bft.nextC, hr, hin, h3, hst, g3, List.head?_nil]
      | cons y ys =>
        rw [hlv] at g3 g2
        have hk' := g5 (by rw [hlv]; simp)
        rw [Tree.bfsFrom_step, hlv] at hrem'
        have hlt : st.depth + 1 < t.height := by
          by_contra hc
          have := (Tree.level_nil_iff t (st.depth + 1)).2 (by omega)
          rw [hlv] at this; cases this
        refine ⟨{ inner := shallowSt (Shallow.collapseMax um (some (st.depth + 1))) M, root := some t.root, depth := st.depth + 1 },
          k + 1 + k', M.length + 1 + t.levelSteps um (st.depth + 1), ?_,
          .inr ⟨M, wM, ?_, rfl, rfl, ?_, hlt, rfl⟩, by omega, ?_, ?_⟩
        · simp only [Bft.nextC, hr, hin, h3, hst, g3, List.head?_nil, hrem']; simp
        · have := shallow_fuel hm ht hx (Shallow.collapseMax um (some (st.depth + 1))) (st.depth + 1); simp only; omega
        · rw [hrem']; simp only [← g2]; simp
        · rw [hrem']; simp
        · rw [hrem']; intro i h; simp at h; subst h
          have := openAt_alive (d := st.depth + 1) hw
          rw [hlev, hlv] at this
          exact this y (by simp)

theorem emitC_ok {ι σ : Type} {idOf : ι → Nat} {o : Option ι} {st' : σ} {k : Nat}
    (h : ∀ i, o = some i → f.isAlive (idOf i) = true) :
    f.emitC idOf (.ok ((o, st'), k)) = .ok ((o, st'), 1 + k) := by
  unfold Forest.emitC
  simp only [emit_ok h]

theorem bftNextC_inv (um : Nat) (hm : Models f s) {t : Tree Nat} (ht : Tree.IsTree s.kids t)
    (hx : s.alive t.root = true) (st : Bft.St) (rem : List (Nat × Nat)) (p : Nat)
    (hi : BftPot um f t st rem p) :
    ∃ st' k p', Forest.bftNextC um f st = .ok ((rem.head?, st'), 1 + k) ∧ BftPot um f t st' rem.tail p' ∧
      p = k + p' ∧ (rem = [] → p' = 0) := by
  obtain ⟨st', k, p', h1, h2, h3, h4, h5⟩ := bftC_next um hm ht hx st rem p hi
  refine ⟨st', k, p', ?_, h2, h3, h4⟩
  unfold Forest.bftNextC; rw [h1]; exact emitC_ok h5

theorem bftPot_start (um : Nat) (hm : Models f s) {t : Tree Nat} (ht : Tree.IsTree s.kids t)
    (hx : s.alive t.root = true) :
    ∃ st, Forest.breadthFirstTraverse um f t.root = .ok st ∧
      BftPot um f t st t.bfs ((t.shallow (Shallow.collapseMax um (some 0))).length + 1 + t.levelSteps um 0) := by
  refine ⟨Bft.St.mk (shallowSt (Shallow.collapseMax um (some 0))
      (t.shallow (Shallow.collapseMax um (some 0)))) (some t.root) 0, ?_, ?_⟩
  · unfold Forest.breadthFirstTraverse
    rw [iterNew_ok (by rw [hm.isAlive, hx]), shallowSt, ends_shallow]
    simp [Bft.withToplevel, Shallow.withToplevelAndMaxDepth, hm.hierAlive, hx]
  · refine .inr ⟨_, shallow_walk hm ht hx _, shallow_fuel hm ht hx _ _, rfl, rfl, ?_, ?_, rfl⟩
    · rw [Tree.filterMap_shallow collapse_le, ← Tree.bfsFrom_zero, Tree.bfsFrom_step]
    · cases t; simp [Tree.height]

/-! ### Counting nodes up to a depth -/
namespace Tree
variable {α : Type}

mutual
theorem length_devents_le : ∀ (t : Tree α) (b m : Nat),
    ((t.devents b).filter fun e => decide (e.2 ≤ b + m)).length = 2 * t.upTo m
  | .node x ts, b, 0 => by
    have : (deventsL (b + 1) ts).filter (fun e => decide (e.2 ≤ b + 0)) = [] := by
      rw [List.filter_eq_nil_iff]
      intro e he
      have := deventsL_depth ts (b + 1) e he
      simp; omega
    simp only [devents, List.filter_cons, List.filter_append, this, upTo]
    simp
  | .node x ts, b, m + 1 => by
    have := length_deventsL_le ts (b + 1) m
    rw [show b + 1 + m = b + (m + 1) by omega] at this
    simp only [devents, List.filter_cons, List.filter_append, upTo, List.filter_nil]
    rw [if_pos (by simp), if_pos (by simp)]
    simp [this]; omega
theorem length_deventsL_le : ∀ (ts : List (Tree α)) (b m : Nat),
    ((deventsL b ts).filter fun e => decide (e.2 ≤ b + m)).length = 2 * upToL m ts
  | [], _, _ => by simp [deventsL, upToL]
  | t :: ts, b, m => by
    simp only [deventsL, upToL, List.filter_append, List.length_append, length_devents_le t b m,
      length_deventsL_le ts b m]
    omega
end

mutual
theorem upTo_all : ∀ (t : Tree α) (d : Nat), t.height ≤ d + 1 → t.upTo d = t.count
  | .node x ts, 0, h => by
    rw [height] at h
    have : countL ts = 0 := by
      cases ts with
      | nil => rfl
      | cons t ts => cases t; simp [heightL, height] at h
    simp [upTo, count, this]
  | .node x ts, d + 1, h => by
    rw [height] at h
    simp [upTo, count, upToL_all ts d (by omega)]
theorem upToL_all : ∀ (ts : List (Tree α)) (d : Nat), heightL ts ≤ d + 1 → upToL d ts = countL ts
  | [], _, _ => rfl
  | t :: ts, d, h => by
    rw [heightL] at h
    simp [upToL, countL, upTo_all t d (by omega), upToL_all ts d (by omega)]
end

theorem length_shallow_upTo (t : Tree α) {um d : Nat} (hu : t.height ≤ um) :
    (t.shallow (Shallow.collapseMax um (some d))).length = 2 * t.upTo d := by
  unfold Shallow.collapseMax
  simp only [Option.bind_some]
  split
  · have := length_devents_le t 0 d
    simpa [shallow] using this
  · rw [upTo_all t d (by omega), shallow]
    rw [← length_events, ← map_fst_devents t 0, List.length_map]

theorem potential_eq (t : Tree α) {um : Nat} (hu : t.height ≤ um) :
    (t.shallow (Shallow.collapseMax um (some 0))).length + 1 + t.levelSteps um 0 = t.bftSteps := by
  have key : ∀ (n D : Nat), D + n = t.height →
      ((List.range' (D + 1) n).map fun d =>
        (t.shallow (Shallow.collapseMax um (some d))).length + 2).sum =
      ((List.range' (D + 1) n).map fun d => 2 * t.upTo d + 1).sum + n := by
    intro n
    induction n with
    | zero => intro D _; simp
    | succ n ih =>
      intro D hD
      rw [List.range'_succ]
      simp only [List.map_cons, List.sum_cons]
      rw [ih (D + 1) (by omega), t.length_shallow_upTo hu]
      omega
  have := key t.height 0 (by omega)
  unfold levelSteps bftSteps
  rw [Nat.sub_zero, this, List.range_eq_range', List.range'_succ, t.length_shallow_upTo hu]
  simp; omega

theorem potential_le (um : Nat) (t : Tree α) :
    (t.shallow (Shallow.collapseMax um (some 0))).length + 1 + t.levelSteps um 0 ≤
      (t.height + 1) * (2 * t.count + 2) := by
  have key : ∀ (l : List Nat), (l.map fun d =>
        (t.shallow (Shallow.collapseMax um (some d))).length + 2).sum ≤ l.length * (2 * t.count + 2) := by
    intro l
    induction l with
    | nil => simp
    | cons d l ih =>
      have := t.length_shallow_le (Shallow.collapseMax um (some d))
      simp only [List.map_cons, List.sum_cons, List.length_cons, Nat.add_mul]
      omega
  have h1 := key (List.range' 1 t.height)
  have h2 := t.length_shallow_le (Shallow.collapseMax um (some 0))
  rw [List.length_range'] at h1
  unfold levelSteps
  rw [Nat.sub_zero, Nat.succ_mul]
  simp only [Nat.zero_add]
  omega

end Tree

/-! ### The allocating traverser -/

theorem pushChildrenC_ok (hm : Models f s) (x : Nat) : ∀ (ts pre : List Nat) (fuel : Nat)
    (q : List ABft.QEv), s.kids x = pre ++ ts → ts.length ≤ fuel →
    ABft.pushChildrenC f.hier fuel ts.head? q = .ok (q ++ ts.map .node, 2 * ts.length) := by
  intro ts
  induction ts with
  | nil => intro pre fuel q _ _; cases fuel <;> simp [ABft.pushChildrenC]
  | cons a ts ih =>
    intro pre fuel q hk hf
    have hv := hm.valid
    have ha := hm.agrees
    have haa : s.alive a = true := hv.kid_alive (p := x) (by rw [hk]; simp)
    have hnx : s.next a = ts.head? := by
      cases ts with
      | nil => exact next_last hv hk
      | cons b ts => exact next_mid hv hk
    cases fuel with
    | zero => simp at hf
    | succ fuel =>
      simp only [List.head?_cons, ABft.pushChildrenC, neighbors_live ((ha.live_iff hv a).2 haa),
        expect_some, ha.nextSibling_get hv haa, hnx]
      rw [ih (pre ++ [a]) fuel _ (by rw [hk]; simp) (by simpa using hf)]
      simp; omega

open ABft in
/-- `ABftInv` with a potential. -/
def ABftPot (s : Shape) (st : ABft.St) (rem : List (Nat × Nat)) (p : Nat) : Prop :=
  (st.events = [] ∧ rem = [] ∧ p = 0) ∨
  ∃ cur nxt : List (Tree Nat),
    (∀ t ∈ cur ++ nxt, Tree.IsTree s.kids t ∧ s.alive t.root = true) ∧
    st.events = cur.map (fun t => QEv.node t.root) ++ .incrementDepth :: nxt.map (fun t => .node t.root) ∧
    rem = cur.map (fun t => (t.root, st.depth)) ++ Tree.bfsL (st.depth + 1) (nxt ++ cur.flatMap Tree.subs) ∧
    p + 2 * (cur.length + nxt.length) = 4 * rem.length + 2 * Tree.heightL (nxt ++ cur.flatMap Tree.subs) + 1

theorem abftC_emit_step (hm : Models f s) {t : Tree Nat} {cur nxt : List (Tree Nat)} (d fuel p : Nat)
    (hall : ∀ u ∈ (t :: cur) ++ nxt, Tree.IsTree s.kids u ∧ s.alive u.root = true)
    (hp : p + 2 * (cur.length + 1 + nxt.length) =
      4 * ((cur.length + 1) + (Tree.bfsL (d + 1) (nxt ++ (t :: cur).flatMap Tree.subs)).length) +
        2 * Tree.heightL (nxt ++ (t :: cur).flatMap Tree.subs) + 1) :
    ∃ st' k p', ABft.nextLoopC f.hier (fuel + 1)
        { events := (t :: cur).map (fun t => ABft.QEv.node t.root) ++
            .incrementDepth :: nxt.map (fun t => .node t.root), depth := d } =
          .ok ((some (t.root, d), st'), k) ∧
      ABftPot s st' (cur.map (fun t => (t.root, d)) ++
        Tree.bfsL (d + 1) (nxt ++ (t :: cur).flatMap Tree.subs)) p' ∧ p = k + p' := by
  have hv := hm.valid
  have ha := hm.agrees
  obtain ⟨ht, hx⟩ := hall t (by simp)
  cases t with
  | node x ts =>
  simp only [Tree.root] at hx
  have hk : s.kids x = ts.map Tree.root := ht.1
  have hlen : (ts.map Tree.root).length ≤ f.hier.loopFuel := by
    rw [← hk]; have := kids_length_le hv x; unfold Hier.loopFuel; rw [ha.1]; omega
  have hge := Tree.length_bfsL_ge (d + 1) (nxt ++ (Tree.node x ts :: cur).flatMap Tree.subs)
  simp only [List.length_append, List.flatMap_cons, Tree.subs] at hge
  refine ⟨{ events := _, depth := d }, 2 + 2 * ts.length, p - (2 + 2 * ts.length), ?_,
    .inr ⟨cur, nxt ++ ts, ?_, rfl, ?_, ?_⟩, ?_⟩
  · simp only [ABft.nextLoopC, List.map_cons, List.cons_append, Tree.root,
      neighbors_live ((ha.live_iff hv x).2 hx), expect_some, ha.firstChild_get hv hx, hk]
    rw [pushChildrenC_ok hm x _ [] _ _ (by simpa using hk) hlen]
    simp
    intro a _; rfl
  · intro u hu
    simp only [List.mem_append] at hu
    rcases hu with hu | hu | hu
    · exact hall u (by simp [hu])
    · exact hall u (by simp [hu])
    · refine ⟨Tree.isForest_iff.1 ht.2 u hu, hv.kid_alive (p := x) ?_⟩
      rw [hk]; exact List.mem_map_of_mem hu
  · simp [Tree.subs]
  · simp only [List.flatMap_cons, Tree.subs, List.length_append, List.length_map, List.append_assoc] at hp ⊢
    omega
  · simp only [List.flatMap_cons, Tree.subs] at hp
    omega

theorem abftC_next (hm : Models f s) (st : ABft.St) (rem : List (Nat × Nat)) (p : Nat)
    (hi : ABftPot s st rem p) :
    ∃ st' k p', ABft.nextC f.hier st = .ok ((rem.head?, st'), k) ∧ ABftPot s st' rem.tail p' ∧
      p = k + p' ∧ (rem = [] → p' = 0) ∧
      ∀ i, rem.head? = some i → f.isAlive i.1 = true := by
  obtain ⟨evs, d⟩ := st
  rcases hi with ⟨hr, rfl, rfl⟩ | ⟨cur, nxt, hall, hev, hrem, hp⟩
  · simp only at hr; subst hr
    exact ⟨{ events := [], depth := d }, 0, 0, by simp [ABft.nextC, ABft.nextLoopC], .inl ⟨rfl, rfl, rfl⟩, rfl,
      fun _ => rfl, by simp⟩
  · simp only at hev hrem; subst hev
    cases cur with
    | cons t cur =>
      obtain ⟨st', k, p', h1, h2, h3⟩ := abftC_emit_step hm (nxt := nxt) d
        (((t :: cur).map (fun t : Tree Nat => ABft.QEv.node t.root) ++
            ABft.QEv.incrementDepth :: nxt.map (fun t : Tree Nat => ABft.QEv.node t.root)).length + 1) p hall
        (by rw [hrem] at hp; simpa [Nat.add_right_comm] using hp)
      refine ⟨st', k, p', by rw [hrem]; exact h1, by rw [hrem]; exact h2, h3, by rw [hrem]; simp, ?_⟩
      rw [hrem]; intro i h; simp at h; subst h
      rw [hm.isAlive]; exact (hall t (by simp)).2
    | nil =>
      simp only [List.map_nil, List.nil_append, List.flatMap_nil, List.append_nil] at hrem hp ⊢
      cases nxt with
      | nil =>
        rw [Tree.bfsL_nil] at hrem; subst hrem
        refine ⟨{ events := [], depth := d }, 1, 0, by simp [ABft.nextC, ABft.nextLoopC], .inl ⟨rfl, rfl, rfl⟩, ?_,
          fun _ => rfl, by simp⟩
        simpa [Tree.heightL] using hp
      | cons t nxt =>
        rw [Tree.bfsL_step (by simp)] at hrem
        rw [hrem, Tree.heightL_succ (by simp)] at hp
        simp only [List.length_append, List.length_map, List.length_cons, List.length_nil] at hp
        obtain ⟨st', k, p', h1, h2, h3⟩ := abftC_emit_step hm (t := t) (cur := nxt) (nxt := []) (d + 1)
          (nxt.length + 2) (p - 2) (by simpa using hall) (by
            simp only [List.nil_append, List.length_nil]
            omega)
        refine ⟨st', 2 + k, p', ?_, by rw [hrem]; simpa using h2, ?_, by rw [hrem]; simp, ?_⟩
        · rw [hrem]
          simp only [ABft.nextC, List.map_cons, List.length_cons, List.length_map]
          unfold ABft.nextLoopC
          simp only [List.isEmpty_cons, Bool.false_eq_true, if_false]
          simp only [List.map_nil, List.map_cons] at h1
          rw [h1]; rfl
        · omega
        · rw [hrem]; intro i h; simp at h; subst h
          rw [hm.isAlive]; exact (hall t (by simp)).2

theorem abftNextC_inv (hm : Models f s) (st : ABft.St) (rem : List (Nat × Nat)) (p : Nat)
    (hi : ABftPot s st rem p) :
    ∃ st' k p', f.abftNextC st = .ok ((rem.head?, st'), 1 + k) ∧ ABftPot s st' rem.tail p' ∧ p = k + p' ∧
      (rem = [] → p' = 0) := by
  obtain ⟨st', k, p', h1, h2, h3, h4, h5⟩ := abftC_next hm st rem p hi
  refine ⟨st', k, p', ?_, h2, h3, h4⟩
  unfold Forest.abftNextC; rw [h1]; exact emitC_ok h5

theorem abftPot_start (hm : Models f s) {t : Tree Nat} (ht : Tree.IsTree s.kids t)
    (hx : s.alive t.root = true) :
    ∃ st, f.allocatingBreadthFirstTraverse t.root = .ok st ∧ ABftPot s st t.bfs t.abftSteps := by
  refine ⟨{ events := [.node t.root, .incrementDepth], depth := 0 }, ?_, ?_⟩
  · unfold Forest.allocatingBreadthFirstTraverse
    rw [iterNew_ok (by rw [hm.isAlive, hx])]
    simp [ABft.withToplevel, hm.hierAlive, hx]
  · refine .inr ⟨[t], [], by simp [ht, hx], by simp, ?_, ?_⟩
    · rw [← Tree.bfsL_single, Tree.bfsL_step (by simp)]; simp
    · have : t.bfs.length = t.count := by
        rw [← Tree.length_preorder, ← (Tree.bfs_perm t).length_eq, List.length_map]
      rw [this]
      cases t with
      | node x ts => simp [Tree.abftSteps, Tree.height, Tree.count, Tree.subs]; omega

end Treena
