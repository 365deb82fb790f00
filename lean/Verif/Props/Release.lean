import Verif.Proof.Release
import Verif.Proof.Mach
import Verif.Proof.Consist
import Verif.Props.Sample
import Verif.Props.SampleRun
/-!
# C63: release builds and debug builds do the same

A release build has no debug assertions and wrapping arithmetic, a debug build has both (`Verif/Model/Release.lean`). -/
set_option autoImplicit false

namespace Treena
variable {T S : Type} {f : Forest T} {cap um : Nat}

/-- **C63**, the calls that are the same in every forest, consistent or not: removal with `remove` and `remove_hooked`,
copying, and printing (whatever the writer and the formatter of the data do). -/
theorem C63_any_forest :
    (∀ x, Release.Forest.remove x f = Forest.remove x f) ∧
    (∀ (hook : Forest.Hook S T) x σ, Release.Forest.removeHooked hook x (f, σ) = Forest.removeHooked hook x (f, σ)) ∧
    (∀ cl (hook : Forest.MapHook S) x σ, Release.Forest.cloneLocalTreeWithIdMapping cap cl hook x (f, σ) =
      Forest.cloneLocalTreeWithIdMapping cap cl hook x (f, σ)) ∧
    (∀ (put : S → Text → Except S S) disp x σ, Release.Forest.debugPrint put disp f x σ = Forest.debugPrint put disp f x σ) :=
  ⟨fun x => by rw [Release.remove_eq], fun hook x σ => by rw [Release.removeHooked_eq],
    fun cl hook x σ => by rw [Release.cloneLocal_eq], fun put disp x σ => by rw [Release.debugPrint_eq]⟩

/-- **C63**, the other two calls, in consistent forests: same result (or panic) and same forest, whatever the hook does. -/
theorem C63_consistent_forest (hc : Consistent f) :
    (∀ x, Release.Forest.detachSingle x f = Forest.detachSingle x f) ∧
    (∀ (hook : Forest.Hook S T) x σ,
      Release.Forest.removeHookedPanicSafe hook x (f, σ) = Forest.removeHookedPanicSafe hook x (f, σ)) := by
  obtain ⟨s, hm⟩ := hc
  exact ⟨fun x => Release.detachSingle_models hm x, fun hook x σ => Release.removePanicSafe_models hook hm x σ⟩

/-- **C63**, the same two calls in an arbitrary forest: whenever the debug build returns, the release build returns the
same and leaves the same forest. -/
theorem C63_debug_returns :
    (∀ x r f', Forest.detachSingle x f = .ok r f' → Release.Forest.detachSingle x f = .ok r f') ∧
    (∀ (hook : Forest.Hook S T) x σ p, Forest.removeHookedPanicSafe hook x (f, σ) = .ok () p →
      Release.Forest.removeHookedPanicSafe hook x (f, σ) = .ok () p) :=
  ⟨fun x r f' h => by rw [(Release.detachSingle_ref x).of_ok h]; exact h,
    fun hook x σ p h => by rw [(Release.removePanicSafe_ref hook x).of_ok h]; exact h⟩

/-- **C63**, histories: as long as no call destroys the forest, a history takes the two builds through the same forests. -/
theorem C63_histories : ∀ (ops : List (Op T)) (f : Forest T), Consistent f → Careful cap f ops →
    Release.run cap f ops = Op.run cap f ops
  | [], _, _, _ => rfl
  | op :: ops, f, ⟨s, hm⟩, hc => by
    show Release.run cap (Release.step cap f op) ops = Op.run cap (Op.step cap f op) ops
    rw [Release.step_models cap hm op]
    exact C63_histories ops _ (run_careful [op] f ⟨s, hm⟩ ⟨hc.1, trivial⟩) hc.2

/-- In a forest destroyed by an in-place insertion (C05) the builds may go different ways: with `b`, `c` children of
`a`, in this order, after `insert(b, first child of a)` and `insert(c, first child of b)`, `detach_single(b)` panics in a
debug build and returns `Ok(())` in a release build. -/
theorem C63_destroyed_forest_differs : ∃ (ops : List (Op Nat)) (x : Nat) (e : Fail) (g g' : Forest Nat),
    Forest.detachSingle x (Op.run 100 Forest.new ops) = .fail e g ∧
    Release.Forest.detachSingle x (Op.run 100 Forest.new ops) = .ok (.ok ()) g' :=
  ⟨[.createRoot 0, .createInsert 1 (.lastChildOf 0), .createInsert 2 (.lastChildOf 0),
    .insert 1 (.firstChildOf 0), .insert 2 (.firstChildOf 1)], 1, _, _, _, rfl, rfl⟩

/-! ### Depths

The arithmetic is that of a build: checked or wrapping at `um = usize::MAX`. -/

/-- The arithmetic of one of the two builds. -/
def IsBuild (um : Nat) (A : Arith) : Prop := A = .checked um ∨ A = .wrapping um

theorem IsBuild.exact {A : Arith} (h : IsBuild um A) : A.Exact um := by
  rcases h with rfl | rfl
  · exact Arith.checked_exact um
  · exact Arith.wrapping_exact um

theorem alive_of_start {σ : Type} {x : Nat} {mk : Nat → Hier → R σ} {st : σ} (h : f.iterNew x mk = .ok st) :
    f.isAlive x = true := by
  unfold Forest.iterNew Forest.nodeOrPanic Forest.node at h
  cases hx : f.isAlive x with
  | true => rfl
  | false => simp [hx] at h

theorem low_um {s : Shape} (hm : Models f s) (h : f.issued ≤ um) : f.hier.nbrs.length ≤ um := by
  have h1 := hm.dataLen
  have h2 := hm.agrees.1
  unfold Forest.issued at h
  omega

/-- **C63**, shallow depth-first traversal: any sequence of `next` and `next_back` calls gives in both builds what it
gives with unbounded depths. -/
theorem C63_shallow {A : Arith} (hA : IsBuild um A) (hc : Consistent f) (hum : f.issued ≤ um) {x : Nat}
    {md : Option Nat} {st : Shallow.St} (hst : Forest.shallowDepthFirstTraverse um f x md = .ok st) (ds : List Dir) :
    drive (Mach.shallowNext A f) (Mach.shallowNextBack A f) st ds = drive f.shallowNext f.shallowNextBack st ds := by
  obtain ⟨s, hm⟩ := hc
  have hx := alive_of_start hst
  rw [hm.isAlive] at hx
  obtain ⟨t, ht, hr⟩ := Tree.exists_tree hm.valid hx
  subst hr
  rw [shallow_start um hm hx] at hst
  cases hst
  rw [Mach.shallow_drive hA.exact hm ht hx (low_um hm hum), shallow_drive hm ht hx]

/-- **C63**, breadth-first traversal. -/
theorem C63_breadth_first {A : Arith} (hA : IsBuild um A) (hc : Consistent f) (hum : f.issued ≤ um) {x : Nat}
    {st : Bft.St} (hst : Forest.breadthFirstTraverse um f x = .ok st) (n : Nat) :
    pull (Mach.breadthFirstNext A um f) n st = pull (Forest.bftNext um f) n st := by
  obtain ⟨s, hm⟩ := hc
  have hx := alive_of_start hst
  rw [hm.isAlive] at hx
  obtain ⟨t, ht, hr⟩ := Tree.exists_tree hm.valid hx
  subst hr
  obtain ⟨st', h1, h2⟩ := Mach.bft_start_low hm ht hx (low_um hm hum)
  rw [h1] at hst
  cases hst
  exact Mach.pull_congr (fun st => Mach.breadthFirst_low hA.exact hm ht hx (low_um hm hum) st) n _ h2

/-- **C63**, allocating breadth-first traversal, with `peek` at any moment. -/
theorem C63_allocating_breadth_first {A : Arith} (hA : IsBuild um A) (hc : Consistent f) (hum : f.issued ≤ um) {x : Nat}
    {st : ABft.St} (hst : f.allocatingBreadthFirstTraverse x = .ok st) (n : Nat) :
    pull (Mach.allocatingNext A f) n st = pull f.abftNext n st ∧
    advance (Mach.allocatingNext A f) n st = advance f.abftNext n st ∧
    ∀ st', advance f.abftNext n st = .ok st' → Mach.allocatingPeek A f st' = f.abftPeek st' := by
  obtain ⟨s, hm⟩ := hc
  have hx := alive_of_start hst
  rw [hm.isAlive] at hx
  obtain ⟨t, ht, hr⟩ := Tree.exists_tree hm.valid hx
  subst hr
  obtain ⟨st', h1, h2⟩ := Mach.abft_start_low hm ht hx (low_um hm hum)
  rw [h1] at hst
  cases hst
  have hl := fun st => Mach.allocating_low (f := f) hA.exact hm st
  exact ⟨Mach.pull_congr hl n _ h2, (Mach.advance_congr hl n _ h2).1,
    fun st' h => Mach.allocatingPeek_low hA.exact ((Mach.advance_congr hl n _ h2).2 st' h)⟩

/-! The hypotheses are met: the sample forest, with 8 IDs issued, on a 4-bit machine. -/
example : Consistent Sample.built ∧ Sample.built.issued ≤ 15 ∧ IsBuild 15 (.wrapping 15) ∧
    (∃ st, Forest.shallowDepthFirstTraverse 15 Sample.built 0 none = .ok st ∧
      drive (Mach.shallowNext (.wrapping 15) Sample.built) (Mach.shallowNextBack (.wrapping 15) Sample.built) st
        [.front, .back, .front, .back, .back] =
        .ok [some (.opn 0, 0), some (.cls 0, 0), some (.opn 1, 1), some (.cls 3, 1), some (.opn 3, 1)]) ∧
    ∃ st, Forest.breadthFirstTraverse 15 Sample.built 0 = .ok st ∧
      pull (Mach.breadthFirstNext (.checked 15) 15 Sample.built) 7 st =
        .ok [some (0, 0), some (1, 1), some (2, 1), some (3, 1), some (4, 2), some (5, 2), none] :=
  ⟨⟨_, Sample.models⟩, by decide +kernel, .inr rfl, ⟨_, rfl, by decide +kernel⟩, _, rfl, by decide +kernel⟩

/-- The bound on the number of issued IDs is not idle: on a machine whose `usize` has the values 0 and 1, the wrapping
build would report depth 0 for node 4, which has depth 2. -/
example : ∃ st, Forest.shallowDepthFirstTraverse 1 Sample.built 0 none = .ok st ∧
    drive (Mach.shallowNext (.wrapping 1) Sample.built) (Mach.shallowNextBack (.wrapping 1) Sample.built) st
      (List.replicate 5 .front) =
      .ok [some (.opn 0, 0), some (.opn 1, 1), some (.cls 1, 1), some (.opn 2, 1), some (.opn 4, 0)] :=
  ⟨_, rfl, by decide +kernel⟩

/-! ### The hypotheses can be met

Each example applies the theorem named in its comment to a concrete forest. -/

section
/-- `C63_consistent_forest`: the sample forest. -/
example := C63_consistent_forest (S := Nat) Sample.consistent

/-- `C63_histories`: the history of the sample forest. -/
example : Release.run 100 Forest.new Sample.ops = Sample.built := C63_histories Sample.ops Forest.new ⟨_, Sample.new_models⟩ Sample.careful

/-- `C63_shallow`: wrapping arithmetic modulo 16. -/
example := C63_shallow (um := 15) (A := .wrapping 15) (.inr rfl) Sample.consistent (by decide) (x := 0) (md := none) rfl [.front, .back]

/-- `C63_breadth_first`: the same. -/
example := C63_breadth_first (um := 15) (A := .wrapping 15) (.inr rfl) Sample.consistent (by decide) (x := 0) rfl 7

/-- `C63_allocating_breadth_first`: the same. -/
example := C63_allocating_breadth_first (um := 15) (A := .wrapping 15) (.inr rfl) Sample.consistent (by decide) (x := 0) rfl 7

end

end Treena
