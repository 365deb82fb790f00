import Verif.Spec.Iter
import Verif.Proof.Bfs
/-!
# Iterators over arbitrary (possibly inconsistent) forests, and counting in breadth-first order
-/
namespace Treena
variable {T ι σ : Type} {f : Forest T}

/-! ### Generic -/

theorem deNext_head {ε : Type} [DecidableEq ε] {stepF : ε → R (Option ε)} {st st' : Option (ε × ε)}
    {o : Option ε} (h : deNext stepF st = .ok (o, st')) : o = st.map (·.1) := by
  unfold deNext at h
  cases st with
  | none => simp only [Except.ok.injEq, Prod.mk.injEq] at h; exact h.1.symm
  | some p =>
    obtain ⟨a, b⟩ := p
    simp only at h
    split at h
    · simp only [Except.ok.injEq, Prod.mk.injEq] at h; exact h.1.symm
    · split at h <;> simp at h <;> exact h.1.symm

theorem deNextBack_last {ε : Type} [DecidableEq ε] {stepB : ε → R (Option ε)} {st st' : Option (ε × ε)}
    {o : Option ε} (h : deNextBack stepB st = .ok (o, st')) : o = st.map (·.2) := by
  unfold deNextBack at h
  cases st with
  | none => simp only [Except.ok.injEq, Prod.mk.injEq] at h; exact h.1.symm
  | some p =>
    obtain ⟨a, b⟩ := p
    simp only at h
    split at h
    · simp only [Except.ok.injEq, Prod.mk.injEq] at h; exact h.1.symm
    · split at h <;> simp at h <;> exact h.1.symm

theorem deNext_none {ε : Type} [DecidableEq ε] {stepF : ε → R (Option ε)} {st st' : Option (ε × ε)}
    (h : deNext stepF st = .ok (none, st')) : st = none ∧ st' = none := by
  have := deNext_head h
  cases st with
  | none => simp only [deNext, Except.ok.injEq, Prod.mk.injEq] at h; exact ⟨rfl, h.2.symm⟩
  | some p => cases this

theorem deNextBack_none {ε : Type} [DecidableEq ε] {stepB : ε → R (Option ε)} {st st' : Option (ε × ε)}
    (h : deNextBack stepB st = .ok (none, st')) : st = none ∧ st' = none := by
  have := deNextBack_last h
  cases st with
  | none => simp only [deNextBack, Except.ok.injEq, Prod.mk.injEq] at h; exact ⟨rfl, h.2.symm⟩
  | some p => cases this

theorem emit_inv {idOf : ι → Nat} {r : R (Option ι × σ)} {o : Option ι} {st : σ}
    (h : f.emit idOf r = .ok (o, st)) :
    r = .ok (o, st) ∧ ∀ i, o = some i → ∃ n, f.nodeAt (idOf i) = .ok n := by
  cases r with
  | error e => cases h
  | ok p =>
    obtain ⟨o', st'⟩ := p
    cases o' with
    | none =>
      simp only [Forest.emit, Except.ok.injEq, Prod.mk.injEq] at h
      obtain ⟨rfl, rfl⟩ := h
      exact ⟨rfl, fun i hi => by cases hi⟩
    | some i =>
      simp only [Forest.emit] at h
      cases hn : f.nodeAt (idOf i) with
      | error e => rw [hn] at h; cases h
      | ok n =>
        rw [hn] at h
        simp only [Except.ok.injEq, Prod.mk.injEq] at h
        obtain ⟨rfl, rfl⟩ := h
        exact ⟨rfl, fun j hj => by cases hj; exact ⟨n, hn⟩⟩

theorem emitPeek_of {idOf : ι → Nat} {o : Option ι} {r : R (Option ι)} (hr : r = .ok o)
    (h : ∀ i, o = some i → ∃ n, f.nodeAt (idOf i) = .ok n) : f.emitPeek idOf r = .ok o := by
  subst hr
  cases o with
  | none => rfl
  | some i => obtain ⟨n, hn⟩ := h i rfl; simp [Forest.emitPeek, hn]

/-- An exhausted iterator state stays exhausted. -/
theorem drive_exhausted {next nextBack : σ → R (Option ι × σ)} {st : σ} (h1 : next st = .ok (none, st))
    (h2 : nextBack st = .ok (none, st)) : ∀ ds : List Dir,
    drive next nextBack st ds = .ok (ds.map fun _ => none)
  | [] => rfl
  | d :: ds => by
    cases d <;> simp [drive, h1, h2, drive_exhausted h1 h2 ds]

theorem pull_exhausted {next : σ → R (Option ι × σ)} {st : σ} (h1 : next st = .ok (none, st)) :
    ∀ n, pull next n st = .ok (List.replicate n none)
  | 0 => rfl
  | n + 1 => by simp [pull, h1, pull_exhausted h1 n, List.replicate_succ]

theorem drive_exhausted_iter {L : List ι} : ∀ ds : List Dir, dequeRest L ds = [] → ∀ ds',
    dequeRun L (ds ++ ds') = dequeRun L ds ++ ds'.map fun _ => none
  | [], h, ds' => by
    simp only [dequeRest] at h; subst h
    induction ds' with
    | nil => rfl
    | cons d ds' ih => cases d <;> simpa [dequeRun] using ih
  | .front :: ds, h, ds' => by simp [dequeRun, drive_exhausted_iter ds h ds']
  | .back :: ds, h, ds' => by simp [dequeRun, drive_exhausted_iter ds h ds']

theorem driveState_deque {next nextBack : σ → R (Option ι × σ)} {st : List ι → σ}
    {P : List ι → Prop} (hP1 : ∀ L, P L → P L.tail) (hP2 : ∀ L, P L → P L.dropLast)
    (h1 : ∀ L, P L → next (st L) = .ok (L.head?, st L.tail))
    (h2 : ∀ L, P L → nextBack (st L) = .ok (L.getLast?, st L.dropLast)) (ds : List Dir) :
    ∀ L, P L → driveState next nextBack (st L) ds = .ok (st (dequeRest L ds)) ∧ P (dequeRest L ds) := by
  induction ds with
  | nil => intro L hL; exact ⟨rfl, hL⟩
  | cons d ds ih =>
    intro L hL
    cases d with
    | front =>
      obtain ⟨h3, h4⟩ := ih _ (hP1 L hL)
      exact ⟨by simp only [driveState, h1 L hL, dequeRest]; exact h3, h4⟩
    | back =>
      obtain ⟨h3, h4⟩ := ih _ (hP2 L hL)
      exact ⟨by simp only [driveState, h2 L hL, dequeRest]; exact h3, h4⟩

/-! ### Breadth-first -/

theorem bft_next_none {um : Nat} {h : Hier} {st st' : Bft.St} (hn : Bft.next um h st = .ok (none, st')) :
    Bft.next um h st' = .ok (none, st') := by
  unfold Bft.next at hn
  cases hr : st.root with
  | none =>
    rw [hr] at hn; simp only [Except.ok.injEq, Prod.mk.injEq, true_and] at hn; subst hn
    simp [Bft.next, hr]
  | some root =>
    rw [hr] at hn
    simp only at hn
    split at hn
    · cases hn
    · simp at hn
    · split at hn
      · cases hn
      · split at hn
        · cases hn
        · simp at hn
        · simp only [Except.ok.injEq, Prod.mk.injEq, true_and] at hn; subst hn; rfl

theorem abft_nextLoop_none {h : Hier} : ∀ (fuel : Nat) (st st' : ABft.St),
    ABft.nextLoop h fuel st = .ok (none, st') → st'.events = []
  | 0, st, st', hn => by cases hn
  | fuel + 1, st, st', hn => by
    unfold ABft.nextLoop at hn
    split at hn
    · rename_i he
      simp only [Except.ok.injEq, Prod.mk.injEq, true_and] at hn; subst hn; exact he
    · split at hn
      · simp only [Except.ok.injEq, Prod.mk.injEq, true_and] at hn; subst hn; rfl
      · exact abft_nextLoop_none fuel _ _ hn
    · repeat' split at hn
      all_goals simp at hn

theorem abft_next_nil {h : Hier} {st : ABft.St} (he : st.events = []) :
    ABft.next h st = .ok (none, st) := by
  unfold ABft.next ABft.nextLoop; rw [he]

open ABft in
/-- The queue holds at most one depth mark. -/
def ABftRaw (st : ABft.St) : Prop :=
  st.events = [] ∨ ∃ a b : List Nat, st.events = a.map QEv.node ++ .incrementDepth :: b.map .node

open ABft in
theorem pushChildren_nodes {h : Hier} : ∀ (fuel : Nat) (o : Option Nat) (q q' : List QEv),
    pushChildren h fuel o q = .ok q' → ∃ c : List Nat, q' = q ++ c.map QEv.node
  | _, none, q, q', hq => by
    unfold pushChildren at hq
    cases hq; exact ⟨[], by simp⟩
  | 0, some _, q, q', hq => by simp [pushChildren] at hq
  | fuel + 1, some child, q, q', hq => by
    unfold pushChildren at hq
    split at hq
    · cases hq
    · split at hq
      · cases hq
      · obtain ⟨c, hc⟩ := pushChildren_nodes fuel _ _ _ hq
        exact ⟨child :: c, by rw [hc]; simp⟩

open ABft in
theorem abft_raw_node {h : Hier} {fuel : Nat} {st : ABft.St} {id : Nat} {rest : List QEv} {o : Option (Nat × Nat)}
    {st' : ABft.St} (he : st.events = .node id :: rest) (hn : nextLoop h (fuel + 1) st = .ok (o, st')) :
    o = some (id, st.depth) ∧ ∃ c : List Nat, st'.events = rest ++ c.map QEv.node := by
  unfold nextLoop at hn
  rw [he] at hn
  simp only at hn
  split at hn
  · cases hn
  · split at hn
    · cases hn
    · split at hn
      · cases hn
      · rename_i q hq
        simp only [Except.ok.injEq, Prod.mk.injEq] at hn
        obtain ⟨rfl, rfl⟩ := hn
        exact ⟨rfl, pushChildren_nodes _ _ _ _ hq⟩

open ABft in
theorem abft_raw_next {h : Hier} {st st' : ABft.St} {o : Option (Nat × Nat)} (hi : ABftRaw st)
    (hn : ABft.next h st = .ok (o, st')) : ABft.peek st = .ok o ∧ ABftRaw st' := by
  rcases hi with he | ⟨a, b, he⟩
  · rw [abft_next_nil he] at hn
    simp only [Except.ok.injEq, Prod.mk.injEq] at hn
    obtain ⟨rfl, rfl⟩ := hn
    exact ⟨by simp [ABft.peek, he], .inl he⟩
  · cases a with
    | cons x a =>
      obtain ⟨rfl, c, hc⟩ := abft_raw_node (rest := a.map QEv.node ++ .incrementDepth :: b.map .node) he hn
      exact ⟨by simp [ABft.peek, he], .inr ⟨a, b ++ c, by rw [hc]; simp⟩⟩
    | nil =>
      simp only [List.map_nil, List.nil_append] at he
      unfold ABft.next nextLoop at hn
      rw [he] at hn
      simp only at hn
      cases b with
      | nil =>
        simp only [List.map_nil, List.isEmpty_nil, if_true, Except.ok.injEq, Prod.mk.injEq] at hn
        obtain ⟨rfl, rfl⟩ := hn
        exact ⟨by simp [ABft.peek, he], .inl rfl⟩
      | cons x b =>
        simp only [List.map_cons, List.isEmpty_cons, Bool.false_eq_true, if_false, List.length_cons] at hn
        obtain ⟨rfl, c, hc⟩ := abft_raw_node (id := x) (rest := b.map QEv.node ++ [.incrementDepth]) (by simp) hn
        exact ⟨by simp [ABft.peek, he], .inr ⟨b, c, by rw [hc]; simp⟩⟩

theorem abft_raw_start {f : Forest T} {x : Nat} {st : ABft.St}
    (h : f.allocatingBreadthFirstTraverse x = .ok st) : ABftRaw st := by
  unfold Forest.allocatingBreadthFirstTraverse Forest.iterNew at h
  split at h
  · cases h
  · rename_i n _
    unfold ABft.withToplevel at h
    split at h
    · cases h
    · cases h; exact .inr ⟨[n], [], rfl⟩

/-! ### The items of a breadth-first traversal are the nodes of the tree -/
namespace Tree
variable {α : Type}

theorem preorderL_append (ts us : List (Tree α)) : preorderL (ts ++ us) = preorderL ts ++ preorderL us := by
  induction ts with
  | nil => rfl
  | cons t ts ih => simp [preorderL, ih]

theorem preorderL_split (ts : List (Tree α)) :
    (preorderL ts).Perm (ts.map root ++ preorderL (ts.flatMap subs)) := by
  induction ts with
  | nil => exact .refl _
  | cons t ts ih =>
    cases t with
    | node a us =>
      simp only [preorderL, preorder, List.map_cons, root, List.flatMap_cons, subs, preorderL_append, List.cons_append]
      refine List.Perm.cons a ?_
      have h1 := ih.append_left (preorderL us)
      refine h1.trans ?_
      rw [← List.append_assoc, ← List.append_assoc]
      exact List.perm_append_comm.append_right _

theorem bfsL_perm : ∀ (n : Nat) (ts : List (Tree α)) (d : Nat), heightL ts ≤ n →
    ((bfsL d ts).map (·.1)).Perm (preorderL ts)
  | n, [], d, _ => by rw [bfsL_nil]; exact .refl _
  | 0, t :: ts, d, h => by
    cases t; simp [heightL, height] at h
  | n + 1, t :: ts, d, h => by
    rw [bfsL_step (by simp) d]
    have hh := heightL_succ (ts := t :: ts) (by simp)
    have := bfsL_perm n ((t :: ts).flatMap subs) (d + 1) (by omega)
    rw [List.map_append, List.map_map]
    refine List.Perm.trans ?_ (preorderL_split (t :: ts)).symm
    exact this.append_left _

theorem bfs_perm (t : Tree α) : (t.bfs.map (·.1)).Perm t.preorder := by
  have := bfsL_perm _ [t] 0 (Nat.le_refl _)
  rw [bfsL_single] at this
  simpa [preorderL] using this

end Tree

/-! ### Depths stay below the number of nodes -/
namespace Tree
mutual
theorem devents_lt {α : Type} : ∀ (t : Tree α) (d : Nat), ∀ e ∈ t.devents d, e.2 < d + t.count
  | .node x ts, d, e, he => by
    simp only [devents, List.mem_cons, List.mem_append, List.not_mem_nil, or_false] at he
    simp only [count]
    rcases he with rfl | he | rfl
    · simp
    · have := deventsL_lt ts (d + 1) e he; omega
    · simp
theorem deventsL_lt {α : Type} : ∀ (ts : List (Tree α)) (d : Nat), ∀ e ∈ deventsL d ts, e.2 < d + countL ts
  | [], _, _, he => by simp [deventsL] at he
  | t :: ts, d, e, he => by
    simp only [deventsL, List.mem_append] at he
    simp only [countL]
    rcases he with he | he
    · have := devents_lt t d e he; omega
    · have := deventsL_lt ts d e he; omega
end
end Tree

end Treena
