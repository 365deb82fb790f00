import Verif.Proof.HangBuild
import Verif.Proof.HangBft
import Verif.Props.HangCause
import Verif.Props.Salvage
/-!
# C89 for the crate as it is compiled

`Props/Hang.lean` is about the functions as compiled with debug assertions and with depths that never overflow; here the calls
are made on the debug build and on the release build.
-/
set_option autoImplicit false

namespace Treena
variable {T : Type} {f : Forest T} {cap um : Nat}

namespace Halts
variable {h : Hier}

theorem arithSucc (b : Build) (um d : Nat) : Halts ((b.arith um).succ d) := by
  cases b
  · show Halts ((Arith.checked um).succ d); unfold Arith.checked; dsimp only; split <;> nofun
  · nofun
theorem arithPred (b : Build) (um d : Nat) : Halts ((b.arith um).pred d) := by
  cases b
  · show Halts ((Arith.checked um).pred d); unfold Arith.checked; dsimp only; split <;> nofun
  · nofun

/-- `ends` with the arithmetic of a build. -/
macro "ends'" : tactic => `(tactic| repeat' (first
  | (with_reducible exact Halts.ok _) | (intro e; cases e; done)
  | (rename_i e; with_reducible exact error (expect _ _) e)
  | (rename_i e; with_reducible exact error (getParent _) e)
  | (rename_i e; with_reducible exact error (nextSibling _) e)
  | (rename_i e; with_reducible exact error (firstChild _) e)
  | (rename_i e; with_reducible exact error (prevSibling _) e)
  | (rename_i e; with_reducible exact error (lastChild _) e)
  | (rename_i e; with_reducible exact error (travNbr _) e)
  | (rename_i e; with_reducible exact error (arithSucc _ _ _) e)
  | (rename_i e; with_reducible exact error (arithPred _ _ _) e)
  | split))

theorem machFwd (b : Build) (um : Nat) (m : Option Nat) (e : Ev Nat × Nat) : Halts (Mach.Shallow.stepFwd (b.arith um) h m e) := by
  unfold Mach.Shallow.stepFwd; ends'
theorem machBack (b : Build) (um : Nat) (m : Option Nat) (e : Ev Nat × Nat) : Halts (Mach.Shallow.stepBack (b.arith um) h m e) := by
  unfold Mach.Shallow.stepBack; ends'
theorem machNext (b : Build) (um : Nat) (st : Shallow.St) : Halts (Mach.shallowNext (b.arith um) f st) := by
  refine emit ?_
  unfold Mach.Shallow.next
  split
  · rename_i e; exact error (deNext (machFwd b um _) _) e
  · nofun
theorem machNextBack (b : Build) (um : Nat) (st : Shallow.St) : Halts (Mach.shallowNextBack (b.arith um) f st) := by
  refine emit ?_
  unfold Mach.Shallow.nextBack
  split
  · rename_i e; exact error (deNextBack (machBack b um _) _) e
  · nofun

theorem machPeek (b : Build) (um : Nat) (st : ABft.St) : Halts (Mach.abftPeek (b.arith um) st) := by
  unfold Mach.abftPeek; ends'

end Halts

/-- **C89**, both builds: a call without a loop over links never hangs, in no forest whatsoever. -/
theorem C89_builds_brief (b : Build) (q : Req T) (hq : q.Brief) (f : Forest T) : (b.exec cap um f q).2 ≠ .hung := by
  cases q with
  | shallow x m ds =>
    exact ofR_ends (Halts.iterate (Halts.machNext b um) (Halts.machNextBack b um) (Halts.shallowDepthFirstTraverse _ _) _) nofun
  | alive x => exact C89_brief (cap := cap) (um := um) (.alive x) hq f
  | data x => exact C89_brief (cap := cap) (um := um) (.data x) hq f
  | link x k => exact C89_brief (cap := cap) (um := um) (.link x k) hq f
  | ends x => exact C89_brief (cap := cap) (um := um) (.ends x) hq f
  | near x k => exact C89_brief (cap := cap) (um := um) (.near x k) hq f
  | nearEnds x => exact C89_brief (cap := cap) (um := um) (.nearEnds x) hq f
  | dft x ds => exact C89_brief (cap := cap) (um := um) (.dft x ds) hq f
  | ancestors x self n => exact C89_brief (cap := cap) (um := um) (.ancestors x self n) hq f
  | row x k ds => exact C89_brief (cap := cap) (um := um) (.row x k ds) hq f
  | createRoot d => exact C89_brief (cap := cap) (um := um) (.createRoot d) hq f
  | setData x v => exact C89_brief (cap := cap) (um := um) (.setData x v) hq f
  | detach x => exact C89_brief (cap := cap) (um := um) (.detach x) hq f
  | _ => exact hq.elim

/-- **C89**, both builds: making an iterator, looking at the next item of one (at either end), asking for its depth limit and
copying it never hang, in no forest whatsoever and with no iterator whatsoever. -/
theorem C89_builds_start_peek (b : Build) (f : Forest T) (its : List Iter) (i : Nat) (q : IterReq) :
    ∀ c ∈ [PoolReq.start q, .peek i, .peekBack i, .maxDepth i, .dup i], (b.poolExec cap um (f, its) (c : PoolReq T)).2 ≠ .hung := by
  intro c hc
  simp only [List.mem_cons, List.not_mem_nil, or_false] at hc
  have old := C89_peek (cap := cap) (um := um) f its i
  rcases hc with rfl | rfl | rfl | rfl | rfl
  · exact C89_start (cap := cap) q f its
  · have h1 := old (.peek i) (by simp)
    simp only [PoolReq.exec] at h1
    simp only [Build.poolExec]
    cases hi : its[i]? with
    | none => nofun
    | some it =>
      rw [hi] at h1
      cases it with
      | abft st =>
        have hl : Halts (Mach.allocatingPeek (b.arith um) f st) :=
          Halts.emitPeek (Halts.machPeek b um st)
        simp only [Build.peek]
        cases e : Mach.allocatingPeek (b.arith um) f st with
        | ok o => nofun
        | error e' =>
          cases e' with
          | panic m => nofun
          | diverge => exact absurd e hl
      | _ => exact h1
  · exact old (.peekBack i) (by simp)
  · exact old (.maxDepth i) (by simp)
  · exact old (.dup i) (by simp)

/-- **C89**, both builds: `next` and `next_back` of a `DepthFirstTraverse`, `ShallowDepthFirstTraverse`, `Ancestors` or `Siblings`
never hang, in no forest whatsoever and with no iterator whatsoever. -/
theorem C89_builds_next (b : Build) (f : Forest T) (its : List Iter) {i : Nat} {it : Iter} (hi : its[i]? = some it) (hb : it.Brief) :
    ∀ c ∈ [PoolReq.next i, .nextBack i], (b.poolExec cap um (f, its) (c : PoolReq T)).2 ≠ .hung := by
  have lf : ∀ {ι σ : Type} {g : ι → Item} {k : σ → Iter} {r : R (Option ι × σ)}, Halts r → Halts (Iter.lift g k r) := by
    intro ι σ g k r hr
    cases r with
    | ok a => nofun
    | error e => exact Halts.error hr rfl
  intro c hc
  simp only [List.mem_cons, List.not_mem_nil, or_false] at hc
  have old := C89_next (cap := cap) (um := um) f its hi hb
  rcases hc with rfl | rfl
  · have h1 := old (.next i) (by simp)
    simp only [PoolReq.exec, hi] at h1
    simp only [Build.poolExec, hi]
    cases it with
    | shallow st =>
      have := lf (g := Item.deep) (k := Iter.shallow) (Halts.machNext (f := f) b um st)
      simp only [Build.next]
      split
      · nofun
      · rename_i e he
        cases e with
        | panic m => nofun
        | diverge => exact absurd he this
    | bft st => exact hb.elim
    | abft st => exact hb.elim
    | _ => exact h1
  · have h1 := old (.nextBack i) (by simp)
    simp only [PoolReq.exec, hi] at h1
    simp only [Build.poolExec, hi]
    cases it with
    | shallow st =>
      have := lf (g := Item.deep) (k := Iter.shallow) (Halts.machNextBack (f := f) b um st)
      simp only [Build.nextBack]
      split
      · nofun
      · rename_i e he
        cases e with
        | panic m => nofun
        | diverge => exact absurd (Option.some.inj he) this
      · nofun
    | bft st => exact hb.elim
    | abft st => exact hb.elim
    | _ => exact h1

/-- **C89**, both builds: in a consistent forest with at most `usize::MAX` IDs no call hangs, whether it is permitted or not. -/
theorem C89_builds_consistent (b : Build) (hc : Consistent f) (hum : f.issued ≤ um) (q : Req T) : (b.exec cap um f q).2 ≠ .hung := by
  rw [C82_call hc hum b q]
  exact C89_consistent hc q

/-- **C89**, both builds: after any history whatsoever, a call that is given no live tainted node (C91) never hangs. -/
theorem C89_builds_untainted (b : Build) (hum : cap ≤ um) (ops : List (Op T)) (q : Req T)
    (hq : ∀ x ∈ q.ids, (b.run cap Forest.new ops).isAlive x = true → ¬ b.taint cap ops x) :
    (b.exec cap um (b.run cap Forest.new ops) q).2 ≠ .hung := by
  have h := b.contained cap ops
  have e := (C91_calls_are_local (um := um) b h.clean q fun x hx => by
    cases e : (b.run cap Forest.new ops).isAlive x with
    | true => exact .inl (hq x hx e)
    | false => exact .inr e).1
  rw [e]
  refine C89_builds_consistent b h.sound ?_ q
  have := h.low
  unfold Forest.issued Forest.without at *
  simp at this ⊢
  omega

/-- **C89**, both builds: after any history whatsoever, building a tree with a `NestTreeBuilder` or a `ChainTreeBuilder` never
hangs. -/
theorem C89_builds_builders (b : Build) (hum : cap ≤ um) (ops : List (Op T)) (q : Req T) (hq : q.Builds) :
    (b.exec cap um (b.run cap Forest.new ops) q).2 ≠ .hung := by
  refine C89_builds_untainted b hum ops q fun x hx => ?_
  cases q <;> first | exact hq.elim | cases hx

/-! ### Why a call hangs, in both builds

`insert`, `create_insert` and their variants are the same code in both builds (`C89_insert_cause`, `C89_create_insert_cause`). -/

theorem parent_step (n : Nat) (nb : Neighbors) (h : f.hier.neighbors n = some nb) : f.parentId n = .ok nb.parent := by
  unfold Forest.parentId Forest.nbr
  simp [h, expect, Neighbors.getParent, nbr_live h]

theorem endless_links {p c : Nat} (h : EndlessLinks f.hier p c) : Endless f.parentId p ∨ Endless f.nextSiblingId c := by
  rcases h with h | h
  · exact .inl (follow_endless parent_step h)
  · exact .inr (follow_endless next_step h)

/-- **C89**, both builds: whatever happened before, `detach_single(x)` hangs only if, in the forest `g` as the call has changed it
so far, the ancestors of the parent of `x` or the siblings from the first child of `x` on go on for ever. -/
theorem C89_detach_single_cause (b : Build) {x : Nat} {g : Forest T}
    (h : b.pick Forest.detachSingle Release.Forest.detachSingle x f = .fail .diverge g) :
    ∃ p c, f.parentId x = .ok (some p) ∧ f.firstChildId x = .ok (some c) ∧ (Endless g.parentId p ∨ Endless g.nextSiblingId c) := by
  have fin : ∀ {h' : Hier}, (∃ nb p c, f.hier.neighbors x = some nb ∧ nb.parent = some p ∧ nb.firstChild = .ok (some c) ∧ EndlessLinks h' p c) →
      h' = g.hier → ∃ p c, f.parentId x = .ok (some p) ∧ f.firstChildId x = .ok (some c) ∧ (Endless g.parentId p ∨ Endless g.nextSiblingId c) := by
    rintro _ ⟨nb, p, c, h1, h2, h3, h4⟩ rfl
    refine ⟨p, c, ?_, ?_, endless_links h4⟩
    · rw [parent_step x nb h1, h2]
    · rw [first_step x nb h1, h3]
  cases b with
  | debug =>
    have h : Forest.detachSingle x f = .fail .diverge g := h
    unfold Forest.detachSingle Forest.onHier M.zoom at h
    split at h
    · cases h
    · rename_i e
      cases h
      exact fin (detachSingle_endless e) rfl
  | release =>
    have h : Release.Forest.detachSingle x f = .fail .diverge g := h
    unfold Release.Forest.detachSingle Forest.onHier M.zoom at h
    split at h
    · cases h
    · rename_i e
      cases h
      exact fin (release_detachSingle_endless e) rfl

/-- **C89**, both builds: whatever happened before, `remove_hooked_panic_safe(x, hook)` and `remove_hooked(x, hook)` hang only if, in
the forest as they leave it, descending from some node from first child to first child never ends. -/
theorem C89_builds_remove_cause (b : Build) {S : Type} (hook : Forest.Hook S T) {x : Nat} {s s' : S} {g : Forest T}
    (h : b.pick Forest.removeHookedPanicSafe Release.Forest.removeHookedPanicSafe hook x (f, s) = .fail .diverge (g, s') ∨
      b.pick Forest.removeHooked Release.Forest.removeHooked hook x (f, s) = .fail .diverge (g, s')) :
    ∃ c, Endless g.firstChildId c := by
  rcases h with h | h
  · cases b with
    | debug => exact removeWith_left (closePanicSafe_closes hook) (closePanicSafe_ends hook) h
    | release =>
      have h : Release.Forest.removeHookedPanicSafe hook x (f, s) = .fail .diverge (g, s') := h
      rw [Release.removePanicSafe_eq] at h
      exact removeWith_left (release_closePanicSafe_closes hook) (release_closePanicSafe_ends hook) h
  · have h : Forest.removeHooked hook x (f, s) = .fail .diverge (g, s') := by
      cases b with
      | debug => exact h
      | release => rw [← C63_any_forest (f := f) (cap := 0).2.1]; exact h
    exact removeWith_left (closeForce_closes hook) (closeForce_ends hook) h

/-- **C89**, both builds: whatever happened before, calling `next` of an `AllocatingBreadthFirstTraverse` any number of times hangs
only if the children of some node go on for ever. -/
theorem C89_builds_abft_cause (b : Build) (f : Forest T) (x n : Nat) (h : (b.exec cap um f (.abft x n)).2 = .hung) :
    ∃ y c, f.firstChildId y = .ok (some c) ∧ Endless f.nextSiblingId c := by
  have key : Req.iterate1 (Mach.allocatingNext (b.arith um) f) (f.allocatingBreadthFirstTraverse x) n = .error .diverge := by
    simp only [Build.exec] at h
    cases e : Req.iterate1 (Mach.allocatingNext (b.arith um) f) (f.allocatingBreadthFirstTraverse x) n with
    | ok a => rw [e] at h; cases h
    | error e' =>
      rw [e] at h
      cases e' with
      | panic m => cases h
      | diverge => rfl
  unfold Req.iterate1 at key
  split at key
  · rename_i st hst
    refine abft_mach_pull _ (Halts.arithSucc b um) n st ?_ key
    unfold Forest.allocatingBreadthFirstTraverse Forest.iterNew ABft.withToplevel at hst
    split at hst
    · cases hst
    · split at hst <;> cases hst
      simp [OneMark]
  · rename_i e he
    cases key
    exact absurd he (Halts.allocatingBreadthFirstTraverse x)

/-- **C89**, both builds: whatever happened before, printing to a sink that does not fail hangs only if the depth-first traversal
of the tree never ends. -/
theorem C89_builds_print_cause (b : Build) {S : Type} (hc : Coherent f) {put : S → Text → Except S S} (hp : ∀ σ t, ∃ σ', put σ t = .ok σ')
    {disp : T → Fmt} {x : Nat} {σ σ' : S}
    (h : b.pick Forest.debugPrint Release.Forest.debugPrint put disp f x σ = .fail .diverge σ') : EndlessWalk f x := by
  cases b with
  | debug => exact C89_print_cause hc hp h
  | release =>
    have h : Release.Forest.debugPrint put disp f x σ = .fail .diverge σ' := h
    rw [Release.debugPrint_eq] at h
    exact C89_print_cause hc hp h

/-- **C89**: whatever happened before, calling `next` of a `BreadthFirstTraverse` at `x` hangs only if, for some depth limit, the
shallow traversal at `x` never ends.  (`n` calls cannot reach a depth above `n`, so there is no overflow.) -/
theorem C89_bft_cause (hc : Coherent f) (x n : Nat) (hn : n < um) (h : (Req.exec cap um f (.bft x n)).2 = .hung) :
    ∃ m, EndlessShallow um f x m := by
  have key : Req.iterate1 (f.bftNext um) (f.breadthFirstTraverse um x) n = .error .diverge := by
    simp only [Req.exec] at h
    cases e : Req.iterate1 (f.bftNext um) (f.breadthFirstTraverse um x) n with
    | ok a => rw [e] at h; cases h
    | error e' =>
      rw [e] at h
      cases e' with
      | panic m => cases h
      | diverge => rfl
  unfold Req.iterate1 at key
  split at key
  · rename_i st hst
    have hs : BftAt um f x st ∧ st.depth = 0 := by
      unfold Forest.breadthFirstTraverse Forest.iterNew Forest.nodeOrPanic Forest.node at hst
      cases ha : f.isAlive x with
      | false => simp [ha, expect] at hst
      | true =>
        simp only [ha, Bool.not_true, Bool.false_eq_true, if_false, expect_some] at hst
        unfold Bft.withToplevel at hst
        split at hst
        · cases hst
        · cases hi : Shallow.withToplevelAndMaxDepth um x f.hier (some 0) with
          | error e => rw [hi] at hst; cases hst
          | ok inner =>
            rw [hi] at hst
            cases hst
            refine ⟨fun r hr => ?_, rfl⟩
            cases hr
            exact ⟨rfl, ha, .start ha (by show 0 < um; omega) hi⟩
    exact bft_pull hc n st hs.1 (by rw [hs.2]; omega) key
  · rename_i e he
    cases key
    exact absurd he (Halts.breadthFirstTraverse x)

/-! ### The hypotheses can be met -/

section

/-- The breadth-first traversal that hangs on the third call. -/
example : ∃ m, EndlessShallow 255 (Op.run 100 Forest.new lowRing) 4 m :=
  C89_bft_cause (cap := 100) (Reachable.coherent ⟨_, rfl⟩) 4 3 (by decide) (by decide +kernel)

/-- A forest with a destroyed tree; the call is given a node of another tree. -/
example (b : Build) := C89_builds_untainted (cap := 100) (um := 255) b (by decide) besideHistory (.drop 0) fun x hx _ h => by
  simp only [Req.ids, List.mem_singleton] at hx
  rw [SalvageExample.beside_taint_build] at h
  rcases beside_taint x h with e | e | e <;> omega

/-- The shallow traversal in a destroyed forest, in a release build with 3-bit depths. -/
example := C89_builds_brief (cap := 100) (um := 7) .release (.shallow 1 none [.front, .front, .front, .back] : Req Nat) trivial (Op.run 100 Forest.new carousel)

/-- An iterator on a destroyed forest. -/
example := C89_builds_next (cap := 100) (um := 7) .release (Op.run 100 Forest.new carousel) [.shallow ⟨some ((.opn 1, 0), (.cls 1, 0)), none⟩]
  (i := 0) (it := .shallow ⟨some ((.opn 1, 0), (.cls 1, 0)), none⟩) rfl trivial

/-- A call that destroys the sample forest. -/
example := C89_builds_consistent (cap := 100) (um := 255) .release ⟨_, Sample.models⟩ (by decide) (.insert 1 (.firstChildOf 0))

/-- Building a tree in a destroyed forest. -/
example := C89_builds_builders (T := Nat) (cap := 100) (um := 255) .release (by decide) upRing (.nest 5 [.addChild 6, .createTree 7 [.addChild 8]]) trivial

/-- `detach_single` hangs in both builds. -/
example (b : Build) : ∃ g : Forest Nat, ∃ p c, (Op.run 100 Forest.new upRing).parentId 1 = .ok (some p) ∧
    (Op.run 100 Forest.new upRing).firstChildId 1 = .ok (some c) ∧ (Endless g.parentId p ∨ Endless g.nextSiblingId c) := by
  have hd : (b.exec 100 255 (Op.run 100 Forest.new upRing) (.detachSingle 1)).2 = .hung := by cases b <;> decide +kernel
  simp only [Build.exec] at hd
  cases e : b.pick Forest.detachSingle Release.Forest.detachSingle 1 (Op.run 100 Forest.new upRing) with
  | ok a g => rw [e] at hd; cases a <;> cases hd
  | fail e' g =>
    rw [e] at hd
    cases e' with
    | panic m => cases hd
    | diverge => exact ⟨g, C89_detach_single_cause b e⟩

/-- The panic-safe removal hangs in both builds. -/
example (b : Build) : ∃ (g : Forest Nat) (c : Nat), Endless g.firstChildId c := by
  have hd : (b.exec 100 255 (Op.run 100 Forest.new ring) (.removeSafe 2 none)).2 = .hung := by cases b <;> decide +kernel
  simp only [Build.exec] at hd
  cases e : b.pick Forest.removeHookedPanicSafe Release.Forest.removeHookedPanicSafe (Req.record none) 2 (Op.run 100 Forest.new ring, []) with
  | ok a g => rw [e] at hd; cases hd
  | fail e' g =>
    rw [e] at hd
    cases e' with
    | panic m => cases hd
    | diverge => exact ⟨g.1, C89_builds_remove_cause b _ (.inl e)⟩

/-- The allocating traversal hangs in both builds. -/
example (b : Build) : ∃ y c, (Op.run 100 Forest.new carousel).firstChildId y = .ok (some c) ∧ Endless (Op.run 100 Forest.new carousel).nextSiblingId c :=
  C89_builds_abft_cause (cap := 100) (um := 255) b _ 1 1 (by cases b <;> decide +kernel)

end

end Treena
