import Verif.Spec.Build
import Verif.Proof.Pool
import Verif.Proof.Release
import Verif.Proof.Mach
import Verif.Proof.Capacity
import Verif.Props.Release
/-!
# The two builds against the naive implementation
-/
set_option autoImplicit false

namespace Treena
variable {T : Type} {f : Forest T} {s : Shape} {cap um : Nat}

theorem models_coherent (hm : Models f s) : Coherent f :=
  ⟨by rw [hm.dataLen, hm.repr.1], fun x => by rw [hm.isAlive, hm.hierAlive]⟩

theorem Build.isBuild (b : Build) (um : Nat) : IsBuild um (b.arith um) := by
  cases b
  · exact .inl rfl
  · exact .inr rfl

theorem Build.pick_same {α : Type} (x : α) (b : Build) : b.pick x x = x := by cases b <;> rfl

theorem ansRes_state {α : Type} (k : α → Ans T) (r : Res (Forest T) α) : (Ans.ofRes k r).1 = r.state := by
  cases r <;> rfl
theorem ansResS_state {α S : Type} (k : α → S → Ans T) (r : Res (Forest T × S) α) : (Ans.ofResS k r).1 = r.state.1 := by
  rcases r with ⟨a, f, s⟩ | ⟨e, f, s⟩ <;> rfl

/-- A call leaves the forest alone or does what one of the calls of a history does. -/
theorem req_op (cap um : Nat) (f : Forest T) (q : Req T) :
    (q.exec cap um f).1 = f ∨ ∃ op : Op T, (q.exec cap um f).1 = op.step cap f := by
  cases q with
  | createRoot d => exact .inr ⟨.createRoot d, by rw [Req.exec, ansRes_state]; rfl⟩
  | createInsert d dest => exact .inr ⟨.createInsert d dest, by rw [Req.exec, ansRes_state]; rfl⟩
  | setData x v => exact .inr ⟨.setData x v, by rw [Req.exec, ansRes_state]; rfl⟩
  | insert x dest => exact .inr ⟨.insert x dest, by rw [Req.exec, ansRes_state]; rfl⟩
  | detach x => exact .inr ⟨.detach x, by rw [Req.exec, ansRes_state]; rfl⟩
  | detachSingle x => exact .inr ⟨.detachSingle x, by rw [Req.exec, ansRes_state]; rfl⟩
  | drop x => exact .inr ⟨.remove x, by rw [Req.exec, ansRes_state]; rfl⟩
  | remove x limit => exact .inr ⟨.removeHooked _ (Req.record limit) [] x, by rw [Req.exec, ansResS_state]; rfl⟩
  | removeSafe x limit => exact .inr ⟨.removeHookedPanicSafe _ (Req.record limit) [] x, by rw [Req.exec, ansResS_state]; rfl⟩
  | copy x cl limit =>
    exact .inr ⟨.cloneLocal _ cl (fun l a b => Req.record limit l (a, b)) [] x, by rw [Req.exec, ansResS_state]; rfl⟩
  | dup x cl =>
    refine .inr ⟨.cloneLocal Unit cl (fun s _ _ => .ok s) () x, ?_⟩
    rw [Req.exec, ansRes_state]
    simp only [Forest.cloneLocalTree, Forest.noHook, Op.step, Op.forestOf]
    generalize Forest.cloneLocalTreeWithIdMapping cap cl (fun s _ _ => .ok s) x (f, ()) = w
    rcases w with ⟨a, f, s⟩ | ⟨e, f, s⟩ <;> rfl
  | nodeCreate self d dest =>
    refine .inr ⟨.nodeCreate self d dest, ?_⟩
    simp only [Req.exec, Op.step]
    split
    · rw [ansRes_state]
    · rfl
  | tryAdopt self x dest =>
    refine .inr ⟨.tryAdopt self x dest, ?_⟩
    simp only [Req.exec, Op.step]
    split
    · rw [ansRes_state]
    · rfl
  | adopt self x dest =>
    refine .inr ⟨.adopt self x dest, ?_⟩
    simp only [Req.exec, Op.step]
    split
    · rw [ansRes_state]
    · rfl
  | nest d calls => exact .inr ⟨.nest d calls, by rw [Req.exec, ansRes_state]; rfl⟩
  | chain d calls => exact .inr ⟨.chain d calls, by rw [Req.exec, ansRes_state]; rfl⟩
  | _ => exact .inl rfl

theorem req_issued (hc : Coherent f) (h : f.issued ≤ cap) (q : Req T) : (q.exec cap um f).1.issued ≤ cap := by
  rcases req_op cap um f q with e | ⟨op, e⟩
  · rw [e]; exact h
  · rw [e]; exact (step_fits f op hc).2 h

/-- In a consistent forest the call is the same in both builds. -/
theorem build_exec (b : Build) (cap : Nat) (hm : Models f s) (hum : f.issued ≤ um) (q : Req T) :
    b.exec cap um f q = q.exec cap um f := by
  have hc : Consistent f := ⟨s, hm⟩
  cases q with
  | shallow x max ds =>
    simp only [Build.exec, Req.exec, Req.iterate]
    cases h : Forest.shallowDepthFirstTraverse um f x max with
    | error e => rfl
    | ok st => simp only [C63_shallow (b.isBuild um) hc hum h ds]
  | bft x n =>
    simp only [Build.exec, Req.exec, Req.iterate1]
    cases h : Forest.breadthFirstTraverse um f x with
    | error e => rfl
    | ok st => simp only [C63_breadth_first (b.isBuild um) hc hum h n]
  | abft x n =>
    simp only [Build.exec, Req.exec, Req.iterate1]
    cases h : f.allocatingBreadthFirstTraverse x with
    | error e => rfl
    | ok st => simp only [(C63_allocating_breadth_first (b.isBuild um) hc hum h n).1]
  | detachSingle x =>
    cases b with
    | debug => rfl
    | release => simp only [Build.exec, Req.exec, Build.pick, Release.detachSingle_models hm x]
  | drop x =>
    cases b with
    | debug => rfl
    | release => simp only [Build.exec, Req.exec, Build.pick, Release.remove_eq]
  | remove x limit =>
    cases b with
    | debug => rfl
    | release => simp only [Build.exec, Req.exec, Build.pick, Release.removeHooked_eq]
  | removeSafe x limit =>
    cases b with
    | debug => rfl
    | release => simp only [Build.exec, Req.exec, Build.pick, Release.removePanicSafe_models _ hm x]
  | copy x cl limit =>
    cases b with
    | debug => rfl
    | release => simp only [Build.exec, Req.exec, Build.pick, Release.cloneLocal_eq]
  | dup x cl =>
    cases b with
    | debug => rfl
    | release => simp only [Build.exec, Req.exec, Build.pick, Release.cloneLocal_eq, Forest.cloneLocalTree]
  | print x pieces =>
    cases b with
    | debug => rfl
    | release => simp only [Build.exec, Req.exec, Build.pick, Release.debugPrint_eq]; rfl
  | _ => rfl

/-! ### Iterators -/

/-- States of iterators whose depths do not overflow. -/
def Sure (um : Nat) (f : Forest T) : Iter → Prop
  | .shallow st => ∃ mx L, Mach.Low um f mx L ∧ st = shallowSt mx L
  | .bft st => ∃ s t, Models f s ∧ Tree.IsTree s.kids t ∧ s.alive t.root = true ∧ Mach.BftLow um f t st
  | .abft st => ∃ s, Models f s ∧ Mach.ABftLow um s st
  | _ => True

theorem sure_start (hm : Models f s) (hum : f.issued ≤ um) {q : IterReq} {it : Iter} (h : Iter.start um f q = .ok it) :
    Sure um f it := by
  have hl := low_um hm hum
  have tree : ∀ {σ : Type} {x : Nat} {mk : Nat → Hier → R σ} {st : σ}, f.iterNew x mk = .ok st →
      ∃ t, Tree.IsTree s.kids t ∧ s.alive t.root = true ∧ t.root = x := by
    intro σ x mk st h
    have hx := alive_of_start h
    rw [hm.isAlive] at hx
    obtain ⟨t, ht, hr⟩ := Tree.exists_tree hm.valid hx
    exact ⟨t, ht, by rw [hr]; exact hx, hr⟩
  cases q with
  | shallow x max =>
    cases hs : Forest.shallowDepthFirstTraverse um f x max with
    | error e => rw [Iter.start, hs] at h; cases h
    | ok st =>
      rw [Iter.start, hs] at h
      cases h
      obtain ⟨t, ht, hx, rfl⟩ := tree hs
      rw [shallow_start um hm hx] at hs
      cases hs
      exact ⟨_, _, Mach.low_shallow hm ht hx hl _, rfl⟩
  | bft x =>
    cases hs : Forest.breadthFirstTraverse um f x with
    | error e => rw [Iter.start, hs] at h; cases h
    | ok st =>
      rw [Iter.start, hs] at h
      cases h
      obtain ⟨t, ht, hx, rfl⟩ := tree hs
      obtain ⟨st', h1, h2⟩ := Mach.bft_start_low hm ht hx hl
      rw [h1] at hs
      cases hs
      exact ⟨s, t, hm, ht, hx, h2⟩
  | abft x =>
    cases hs : f.allocatingBreadthFirstTraverse x with
    | error e => rw [Iter.start, hs] at h; cases h
    | ok st =>
      rw [Iter.start, hs] at h
      cases h
      obtain ⟨t, ht, hx, rfl⟩ := tree hs
      obtain ⟨st', h1, h2⟩ := Mach.abft_start_low hm ht hx hl
      rw [h1] at hs
      cases hs
      exact ⟨s, hm, h2⟩
  | dft x =>
    cases hs : f.depthFirstTraverse x <;> rw [Iter.start, hs] at h <;> cases h
    trivial
  | ancestors x self =>
    rw [Iter.start] at h
    generalize (if self = true then f.ancestorsOrSelf x else f.ancestors x) = w at h
    cases w <;> cases h
    trivial
  | row x k =>
    rw [Iter.start] at h
    generalize Req.rowOf f x k = w at h
    cases w <;> cases h
    trivial

theorem arith_exact (b : Build) (um : Nat) : (b.arith um).Exact um := (b.isBuild um).exact

theorem lift_inv {ι σ : Type} {g : ι → Item} {k : σ → Iter} {r : R (Option ι × σ)} {o : Option Item} {it : Iter}
    (h : Iter.lift g k r = .ok (o, it)) : ∃ i st, r = .ok (i, st) ∧ it = k st := by
  rcases r with e | ⟨i, st⟩
  · cases h
  · cases h; exact ⟨i, st, rfl, rfl⟩

theorem sure_next (b : Build) (hm : Models f s) (hum : f.issued ≤ um) {it : Iter} (h : Sure um f it) :
    b.next um f it = it.next um f ∧ ∀ o it', it.next um f = .ok (o, it') → Sure um f it' := by
  have hl := low_um hm hum
  have hA := arith_exact b um
  cases it with
  | shallow st =>
    obtain ⟨mx, L, w, rfl⟩ := h
    have h1 := Mach.shallowNext_low hA w
    have h2 : f.shallowNext (shallowSt mx L) = .ok (L.head?, shallowSt mx L.tail) := shallowNext_walk w.walk
    refine ⟨by simp only [Build.next, Iter.next, h1, h2], fun o it' h => ?_⟩
    simp only [Iter.next, h2, Iter.lift] at h
    cases h
    exact ⟨mx, _, w.tail, rfl⟩
  | bft st =>
    obtain ⟨s, t, hm, ht, hx, hi⟩ := h
    obtain ⟨h1, h2⟩ := Mach.breadthFirst_low hA hm ht hx hl st hi
    refine ⟨by simp only [Build.next, Iter.next, h1], fun o it' h => ?_⟩
    obtain ⟨i, st', h3, rfl⟩ := lift_inv h
    exact ⟨s, t, hm, ht, hx, h2 _ _ h3⟩
  | abft st =>
    obtain ⟨s, hm, h⟩ := h
    obtain ⟨h1, h2⟩ := Mach.allocating_low hA hm st h
    refine ⟨by simp only [Build.next, Iter.next, h1], fun o it' h => ?_⟩
    obtain ⟨i, st', h3, rfl⟩ := lift_inv h
    exact ⟨s, hm, h2 _ _ h3⟩
  | dft st => exact ⟨rfl, fun o it' h => by obtain ⟨i, st', _, rfl⟩ := lift_inv h; trivial⟩
  | ancestors st => exact ⟨rfl, fun o it' h => by obtain ⟨i, st', _, rfl⟩ := lift_inv h; trivial⟩
  | siblings st => exact ⟨rfl, fun o it' h => by obtain ⟨i, st', _, rfl⟩ := lift_inv h; trivial⟩

theorem sure_back (b : Build) {it : Iter} (h : Sure um f it) :
    b.nextBack um f it = it.nextBack f ∧ ∀ o it', it.nextBack f = some (.ok (o, it')) → Sure um f it' := by
  have hA := arith_exact b um
  cases it with
  | shallow st =>
    obtain ⟨mx, L, w, rfl⟩ := h
    have h1 := Mach.shallowNextBack_low hA w
    have h2 : f.shallowNextBack (shallowSt mx L) = .ok (L.getLast?, shallowSt mx L.dropLast) := shallowNextBack_walk w.walk
    refine ⟨by simp only [Build.nextBack, Iter.nextBack, h1, h2], fun o it' h => ?_⟩
    simp only [Iter.nextBack, h2, Iter.lift] at h
    cases h
    exact ⟨mx, _, w.dropLast, rfl⟩
  | bft st => exact ⟨rfl, fun o it' h => by cases h⟩
  | abft st => exact ⟨rfl, fun o it' h => by cases h⟩
  | ancestors st => exact ⟨rfl, fun o it' h => by cases h⟩
  | dft st =>
    refine ⟨rfl, fun o it' h => ?_⟩
    simp only [Iter.nextBack, Option.some.injEq] at h
    obtain ⟨i, st', _, rfl⟩ := lift_inv h; trivial
  | siblings st =>
    refine ⟨rfl, fun o it' h => ?_⟩
    simp only [Iter.nextBack, Option.some.injEq] at h
    obtain ⟨i, st', _, rfl⟩ := lift_inv h; trivial

theorem sure_peek (b : Build) {it : Iter} (h : Sure um f it) : b.peek um f it = it.peek f := by
  cases it with
  | abft st => simp only [Build.peek, Iter.peek, Mach.allocatingPeek_low (arith_exact b um) h.choose_spec.2]
  | _ => rfl

/-- A call by a client that keeps iterators is the same in both builds, and no depth is about to overflow after it. -/
theorem build_poolExec (b : Build) (cap : Nat) (hm : Models f s) (hum : f.issued ≤ um) {p : List Iter}
    (hp : ∀ it ∈ p, Sure um f it) (c : PoolReq T) : b.poolExec cap um (f, p) c = c.exec cap um (f, p) ∧
      ((c.exec cap um (f, p)).1.1 = f → ∀ it ∈ (c.exec cap um (f, p)).1.2, Sure um f it) := by
  have get : ∀ {i : Nat} {it : Iter}, p[i]? = some it → Sure um f it := fun h => hp _ (List.mem_of_getElem? h)
  have set : ∀ (i : Nat) {it : Iter}, Sure um f it → ∀ x ∈ p.set i it, Sure um f x := fun i it h x hx => by
    rcases List.mem_or_eq_of_mem_set hx with h' | rfl
    · exact hp _ h'
    · exact h
  cases c with
  | call q =>
    refine ⟨by simp only [Build.poolExec, PoolReq.exec, build_exec b cap hm hum q], fun _ it hi => ?_⟩
    simp only [PoolReq.exec] at hi
    split at hi
    · exact hp _ hi
    · cases hi
  | start q =>
    refine ⟨rfl, fun _ it hi => ?_⟩
    simp only [PoolReq.exec] at hi
    split at hi
    · rename_i it' hs
      rcases List.mem_append.1 hi with h | h
      · exact hp _ h
      · rw [List.mem_singleton.1 h]; exact sure_start hm hum hs
    · exact hp _ hi
  | next i =>
    cases hi : p[i]? with
    | none => exact ⟨by simp only [Build.poolExec, PoolReq.exec, hi], fun _ => by simpa only [PoolReq.exec, hi] using hp⟩
    | some it =>
      obtain ⟨h1, h2⟩ := sure_next b hm hum (get hi)
      refine ⟨by simp only [Build.poolExec, PoolReq.exec, hi, h1]; rfl, fun _ => ?_⟩
      simp only [PoolReq.exec, hi]
      cases hn : it.next um f with
      | error e => exact hp
      | ok y => exact set i (h2 _ _ hn)
  | nextBack i =>
    cases hi : p[i]? with
    | none => exact ⟨by simp only [Build.poolExec, PoolReq.exec, hi], fun _ => by simpa only [PoolReq.exec, hi] using hp⟩
    | some it =>
      obtain ⟨h1, h2⟩ := sure_back b (get hi)
      refine ⟨by simp only [Build.poolExec, PoolReq.exec, hi, h1]; rfl, fun _ => ?_⟩
      simp only [PoolReq.exec, hi]
      rcases hn : it.nextBack f with _ | (e | y)
      · exact hp
      · exact hp
      · exact set i (h2 _ _ hn)
  | peek i =>
    cases hi : p[i]? with
    | none => exact ⟨by simp only [Build.poolExec, PoolReq.exec, hi], fun _ => by simpa only [PoolReq.exec, hi] using hp⟩
    | some it =>
      refine ⟨by simp only [Build.poolExec, PoolReq.exec, hi, sure_peek b (get hi)]; rfl, fun _ => ?_⟩
      simp only [PoolReq.exec, hi]
      rcases it.peek f with _ | (e | y) <;> exact hp
  | peekBack i =>
    refine ⟨rfl, fun _ => ?_⟩
    simp only [PoolReq.exec]
    split
    · split <;> exact hp
    · exact hp
  | maxDepth i =>
    refine ⟨rfl, fun _ => ?_⟩
    simp only [PoolReq.exec]
    split
    · split <;> exact hp
    · exact hp
  | dup i =>
    refine ⟨rfl, fun _ it hi => ?_⟩
    simp only [PoolReq.exec] at hi
    split at hi
    · rename_i it' hs
      rcases List.mem_append.1 hi with h | h
      · exact hp _ h
      · rw [List.mem_singleton.1 h]; exact get hs
    · exact hp _ hi

/-- Iterators outlive a call only if it leaves the forest alone. -/
theorem pool_iters (cap um : Nat) (f : Forest T) (p : List Iter) (c : PoolReq T) :
    (c.exec cap um (f, p)).1.1 = f ∨ (c.exec cap um (f, p)).1.2 = [] := by
  cases c with
  | call q =>
    cases hb : q.borrows with
    | false => right; simp [PoolReq.exec, hb]
    | true => left; simp only [PoolReq.exec]; cases q <;> first | rfl | simp [Req.borrows] at hb
  | start q => left; simp only [PoolReq.exec]; split <;> rfl
  | next i => left; simp only [PoolReq.exec]; repeat' (first | rfl | split)
  | nextBack i => left; simp only [PoolReq.exec]; repeat' (first | rfl | split)
  | peek i => left; simp only [PoolReq.exec]; repeat' (first | rfl | split)
  | peekBack i => left; simp only [PoolReq.exec]; repeat' (first | rfl | split)
  | maxDepth i => left; simp only [PoolReq.exec]; repeat' (first | rfl | split)
  | dup i => left; simp only [PoolReq.exec]; repeat' (first | rfl | split)

theorem pool_issued (hc : Coherent f) (h : f.issued ≤ cap) (p : List Iter) (c : PoolReq T) :
    (c.exec cap um (f, p)).1.1.issued ≤ cap := by
  cases c with
  | call q => exact req_issued hc h q
  | start q => simp only [PoolReq.exec]; split <;> exact h
  | next i => simp only [PoolReq.exec]; repeat' (first | exact h | split)
  | nextBack i => simp only [PoolReq.exec]; repeat' (first | exact h | split)
  | peek i => simp only [PoolReq.exec]; repeat' (first | exact h | split)
  | peekBack i => simp only [PoolReq.exec]; repeat' (first | exact h | split)
  | maxDepth i => simp only [PoolReq.exec]; repeat' (first | exact h | split)
  | dup i => simp only [PoolReq.exec]; repeat' (first | exact h | split)

theorem build_grow (b : Build) (cap um : Nat) (client : List (PoolAns T) → PoolReq T) : ∀ (k : Nat) (g : Forest T × List Iter)
    (l : List (PoolAns T)), ∃ rest, b.poolTranscript cap um client k g l = l ++ rest ∧ rest.length = k := by
  intro k
  induction k with
  | zero => intro g l; exact ⟨[], by simp [Build.poolTranscript], rfl⟩
  | succ k ih =>
    intro g l
    obtain ⟨rest, h1, h2⟩ := ih (b.poolExec cap um g (client l)).1 (l ++ [(b.poolExec cap um g (client l)).2])
    exact ⟨(b.poolExec cap um g (client l)).2 :: rest, by simp [Build.poolTranscript, h1], by simp [h2]⟩

theorem build_run (b : Build) (cap um : Nat) (hcap : cap ≤ um) (client : List (PoolAns T) → PoolReq T) :
    ∀ (n : Nat) {r : Plain T} {f : Forest T} {s : Shape} {p : List Iter} {q : List Deck} (seen : List (PoolAns T)),
    Plain.Abs r f s → PoolRel um f s p q → f.issued ≤ cap → (∀ it ∈ p, Sure um f it) →
    ∃ rest, b.poolTranscript cap um client n (f, p) seen = Plain.poolTranscript cap um client n (r, q) seen ++ rest ∧
      rest.length + (Plain.poolTranscript cap um client n (r, q) seen).length = seen.length + n
  | 0, r, f, s, p, q, seen, h, hp, hi, hs =>
    ⟨[], by simp [Build.poolTranscript, Plain.poolTranscript], by simp [Plain.poolTranscript]⟩
  | n + 1, r, f, s, p, q, seen, h, hp, hi, hs => by
    cases he : Plain.poolExec cap um (r, q) (client seen) with
    | none =>
      obtain ⟨rest, h1, h2⟩ := build_grow b cap um client (n + 1) (f, p) seen
      exact ⟨rest, by simp only [Plain.poolTranscript, he, h1], by simp only [Plain.poolTranscript, he, h2]; omega⟩
    | some y =>
      obtain ⟨h1, s', h2, h2'⟩ := pool_exec h hp cap (client seen) he
      obtain ⟨e, hs'⟩ := build_poolExec b cap h.models (Nat.le_trans hi hcap) hs (client seen)
      have hi' := pool_issued (um := um) (models_coherent h.models) hi p (client seen)
      have hs'' : ∀ it ∈ ((client seen).exec cap um (f, p)).1.2, Sure um ((client seen).exec cap um (f, p)).1.1 it := by
        rcases pool_iters cap um f p (client seen) with e' | e'
        · rw [e']; exact hs' e'
        · rw [e']; intro it hit; cases hit
      obtain ⟨⟨r', q'⟩, a⟩ := y
      obtain ⟨rest, h3, h4⟩ := build_run b cap um hcap client n (seen ++ [a]) h2 h2' hi' hs''
      refine ⟨rest, ?_, ?_⟩
      · simp only [Plain.poolTranscript, he, Build.poolTranscript, e, h1]
        exact h3
      · simp only [Plain.poolTranscript, he, h4, List.length_append, List.length_singleton]; omega

end Treena
