import Verif.Proof.Build
import Verif.Props.Sample
import Verif.Props.SampleRun
/-!
# C82: the crate as it is compiled
-/
set_option autoImplicit false

namespace Treena
variable {T : Type} {f : Forest T} {cap um : Nat}

/-- **C82**, one call: in a consistent forest with at most `usize::MAX` IDs issued, a call (of any kind, promised by C65 or not)
does the same in a debug build, in a release build, and with depths that cannot overflow. -/
theorem C82_call (hc : Consistent f) (hum : f.issued ≤ um) (b : Build) (q : Req T) :
    b.exec cap um f q = q.exec cap um f := by
  obtain ⟨s, hm⟩ := hc
  exact build_exec b cap hm hum q

/-- **C82**.  Take any client as in C78: it keeps iterators of all kinds, mixes and clones them, and makes any calls in between,
deciding by all answers it has seen.  Compile it with the crate in a debug build (assertions, overflow panics) or in a release
build (no assertions, `usize` wraps around), with an ID type that has at most `usize::MAX` IDs.  The answers are those of the
naive implementation, up to the first call for which nothing is promised; without such a call, all of them. -/
theorem C82_builds (b : Build) (hcap : cap ≤ um) (client : List (PoolAns T) → PoolReq T) (n : Nat) :
    (∃ rest, b.poolTranscript cap um client n (Forest.new, []) [] =
      Plain.poolTranscript cap um client n (Plain.empty, []) [] ++ rest) ∧
    ((Plain.poolTranscript cap um client n (Plain.empty, []) []).length = n →
      b.poolTranscript cap um client n (Forest.new, []) [] = Plain.poolTranscript cap um client n (Plain.empty, []) []) := by
  obtain ⟨rest, h1, h2⟩ := build_run b cap um hcap client n [] (plain_new (T := T)) (p := []) (q := []) .nil
    (Nat.zero_le _) (fun _ h => by cases h)
  refine ⟨⟨rest, h1⟩, fun h => ?_⟩
  have : rest = [] := List.length_eq_zero_iff.1 (by simp at h2; omega)
  rw [h1, this, List.append_nil]

/-- **C82** from any consistent forest instead of the empty one. -/
theorem C82_builds_from (hc : Consistent f) : ∃ r : Plain T, ∀ (b : Build) (cap um : Nat), cap ≤ um → f.issued ≤ cap →
    ∀ (client : List (PoolAns T) → PoolReq T) (n : Nat),
    (∃ rest, b.poolTranscript cap um client n (f, []) [] = Plain.poolTranscript cap um client n (r, []) [] ++ rest) ∧
    ((Plain.poolTranscript cap um client n (r, []) []).length = n →
      b.poolTranscript cap um client n (f, []) [] = Plain.poolTranscript cap um client n (r, []) []) := by
  obtain ⟨s, hm⟩ := hc
  obtain ⟨r, hr⟩ := plain_exists hm
  refine ⟨r, fun b cap um hcap hi client n => ?_⟩
  obtain ⟨rest, h1, h2⟩ := build_run b cap um hcap client n [] hr (p := []) (q := []) .nil hi (fun _ h => by cases h)
  refine ⟨⟨rest, h1⟩, fun h => ?_⟩
  have : rest = [] := List.length_eq_zero_iff.1 (by simp at h2; omega)
  rw [h1, this, List.append_nil]

/-- **C82**: so no client that stays within the promised calls can find out how the crate was compiled. -/
theorem C82_indistinguishable (b b' : Build) (hcap : cap ≤ um) (client : List (PoolAns T) → PoolReq T) (n : Nat)
    (h : (Plain.poolTranscript cap um client n (Plain.empty, []) []).length = n) :
    b.poolTranscript cap um client n (Forest.new, []) [] = b'.poolTranscript cap um client n (Forest.new, []) [] := by
  rw [(C82_builds b hcap client n).2 h, (C82_builds b' hcap client n).2 h]

namespace BuildExample

/-- A client on a machine whose `usize` has 4 bits. -/
def calls : List (PoolReq Nat) :=
  [.call (.nest 10 [.createTree 11 [.createTree 12 [.addChild 13]], .addChild 14]), .start (.shallow 0 none), .start (.bft 0), .next 0,
   .nextBack 0, .next 0, .nextBack 0, .next 1, .next 1, .dup 0, .next 0, .nextBack 2, .start (.abft 1), .next 3, .peek 3, .next 3,
   .call (.detachSingle 1), .call (.removeSafe 2 (some 0)), .call (.bft 0 5), .call (.print 0 fun d => [[Char.ofNat (d + 87)]])]

/-- What it sees. -/
example : (Build.poolTranscript .release 15 15 (fun seen => (calls[seen.length]?).getD (.next 0)) 20 (Forest.new, []) []).drop 10 =
    [.item (some (.deep (.opn 2, 2))), .item (some (.deep (.opn 4, 1))), .opened, .item (some (.level (1, 0))), .item (some (.level (2, 1))),
      .item (some (.level (2, 1))), .call .done, .call .panicked, .call (.levels [some (0, 0), some (4, 1), none, none, none]),
      .call (.text true "a\n`-- e".toList)] := by
  rw [(C82_builds .release (by decide) _ 20).2 (by decide +kernel)]
  decide +kernel

/-- The condition on the number of IDs is needed for the arithmetic only: with `usize::MAX` = 1, a chain of three nodes has a node
at depth 2; the debug build panics there and the release build gives depth 0. -/
example :
    (Build.poolTranscript .debug 9 1 (fun seen => ([.call (.chain 0 [.child 1, .child 2]), .call (.shallow 0 none [.front, .front, .front])] :
      List (PoolReq Nat))[seen.length]?.getD (.next 0)) 2 (Forest.new, []) []).drop 1 = [.call .panicked] ∧
    (Build.poolTranscript .release 9 1 (fun seen => ([.call (.chain 0 [.child 1, .child 2]), .call (.shallow 0 none [.front, .front, .front])] :
      List (PoolReq Nat))[seen.length]?.getD (.next 0)) 2 (Forest.new, []) []).drop 1 =
      [.call (.devents [some (.opn 0, 0), some (.opn 1, 1), some (.opn 2, 0)])] := by decide +kernel

end BuildExample

/-! ### The hypotheses can be met

Each example applies the theorem named in its comment to a concrete forest. -/

section
/-- `C82_builds_from`: the sample forest. -/
example := C82_builds_from Sample.consistent

/-- `C82_call`: the sample forest and a traversal. -/
example := C82_call (cap := 100) (um := 255) Sample.consistent (by decide) .release (.shallow 0 none [.front, .back])

/-- `C82_indistinguishable`: the client of the example above. -/
example := C82_indistinguishable (cap := 15) (um := 15) .debug .release (by decide) (fun seen => (BuildExample.calls[seen.length]?).getD (.next 0)) 20 (by decide +kernel)

end

end Treena
