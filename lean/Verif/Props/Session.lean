import Verif.Proof.Session
import Verif.Props.SampleRun
/-!
# C83: whole programs
-/
set_option autoImplicit false

namespace Treena
variable {T : Type} {cap um : Nat}

/-- **C83**.  Take any program that keeps several forests and any iterators over them: it makes forests, calls anything on each of
them, keeps, mixes and clones iterators, copies trees from one forest to another while iterating over the source, and clones whole
forests, deciding on each step by all the answers it has seen.  Compile it in a debug or a release build with an ID type that has at
most `usize::MAX` IDs.  Its answers are those it would get if each forest were a naive list of trees and each iterator the list of
its remaining items, up to the first call for which nothing is promised; without such a call, all of them. -/
theorem C83_programs (b : Build) (hcap : cap ≤ um) (program : List (PoolAns T) → Deed T) (n : Nat) :
    (∃ rest, b.session cap um program n [] [] = Plain.session cap um program n [] [] ++ rest) ∧
    ((Plain.session cap um program n [] []).length = n →
      b.session cap um program n [] [] = Plain.session cap um program n [] []) := by
  obtain ⟨rest, h1, h2⟩ := session_run b hcap program n [] (List.Forall₂.nil : Realm cap um ([] : List (Forest T × List Iter)) [])
  refine ⟨⟨rest, h1⟩, fun h => ?_⟩
  have : rest = [] := List.length_eq_zero_iff.1 (by simp at h2; omega)
  rw [h1, this, List.append_nil]

theorem plain_at_answer {r : Plain T} {x : Nat} {k : Tree (Nat × T) → Plain T × Ans T} (h : ∀ t, (k t).2 ≠ .hung) : (r.at_ x k).2 ≠ .hung := by
  unfold Plain.at_
  split
  · exact h _
  · nofun

theorem plain_remove_answer {r : Plain T} {x : Nat} : (r.remove x).2 ≠ .hung := by
  unfold Plain.remove; split <;> nofun
theorem plain_createRoot_answer {r : Plain T} {d : T} : (r.createRoot cap d).2 ≠ .hung := by
  unfold Plain.createRoot; split <;> nofun
theorem plain_createInsert_answer {r : Plain T} {d : T} {pl : Place} : (r.createInsert cap d pl).2 ≠ .hung := by
  unfold Plain.createInsert; repeat' (first | (intro e; cases e; done) | split)
theorem plain_insert_answer {r : Plain T} {x : Nat} {pl : Place} {y : Plain T × Ans T} (h : r.insert x pl = some y) : y.2 ≠ .hung := by
  unfold Plain.insert at h
  repeat' (first | (cases h <;> (intro e; cases e)) | split at h)
theorem plain_copyTree_answer {r : Plain T} {t : Tree (Nat × T)} {cl : T → Option T} {limit : Option Nat} :
    (r.copyTree cap t cl limit).2 ≠ .hung := by
  unfold Plain.copyTree; dsimp only; split <;> nofun
theorem plain_copy_answer {r : Plain T} {x : Nat} {cl : T → Option T} {limit : Option Nat} :
    (r.copy cap x cl limit).2 ≠ .hung := plain_at_answer fun _ => plain_copyTree_answer

/-- The naive implementation always answers. -/
theorem plain_answers {r : Plain T} {q : Req T} {y : Plain T × Ans T} (h : r.exec cap um q = some y) : y.2 ≠ .hung := by
  cases q with
  | insert x dest => exact plain_insert_answer h
  | tryAdopt self x ad =>
    simp only [Plain.exec] at h
    split at h
    · exact plain_insert_answer h
    · cases h; nofun
  | adopt self x ad =>
    simp only [Plain.exec] at h
    split at h
    · obtain ⟨z, hz, rfl⟩ := Option.map_eq_some_iff.1 h
      have := plain_insert_answer hz
      dsimp only
      split
      · nofun
      · exact this
    · cases h; nofun
  | nodeCreate self d ad =>
    simp only [Plain.exec] at h
    split at h <;> cases h
    · exact plain_createInsert_answer
    · nofun
  | remove x limit =>
    simp only [Plain.exec, Plain.removeForce] at h
    repeat' (first | (cases h <;> first | exact plain_remove_answer | (intro e; cases e; done)) | split at h)
  | removeSafe x limit =>
    simp only [Plain.exec, Option.some.injEq] at h
    rw [← h, Plain.removeSafe.eq_def]
    repeat' (first | exact plain_remove_answer | (intro e; cases e; done) | split)
  | dup x cl =>
    simp only [Plain.exec, Option.some.injEq] at h
    rw [← h]
    have := plain_copy_answer (cap := cap) (r := r) (x := x) (cl := cl) (limit := none)
    dsimp only
    split
    · nofun
    · exact this
  | copy x cl limit => cases h; exact plain_copy_answer
  | createRoot d => cases h; exact plain_createRoot_answer
  | createInsert d dest => cases h; exact plain_createInsert_answer
  | nest d calls =>
    simp only [Plain.exec, Option.some.injEq] at h
    rw [← h, Plain.nest]
    split
    · nofun
    · dsimp only; split <;> nofun
  | chain d calls =>
    simp only [Plain.exec, Option.some.injEq] at h
    rw [← h, Plain.chain]
    have := plain_createRoot_answer (cap := cap) (r := r) (d := d)
    split
    · split <;> nofun
    · rename_i e; rw [e] at this; exact this
  | detachSingle x =>
    cases h
    refine plain_at_answer fun t => ?_
    repeat' (first | (intro e; cases e; done) | split)
  | detach x => cases h; exact plain_at_answer fun t => nofun
  | print x pieces => cases h; exact plain_at_answer fun t => nofun
  | dft x => cases h; exact plain_at_answer fun t => nofun
  | shallow x => cases h; exact plain_at_answer fun t => nofun
  | bft x => cases h; exact plain_at_answer fun t => nofun
  | abft x => cases h; exact plain_at_answer fun t => nofun
  | ancestors x => cases h; exact plain_at_answer fun t => nofun
  | row x => cases h; exact plain_at_answer fun t => nofun
  | link x => cases h; dsimp only; split <;> nofun
  | ends x => cases h; dsimp only; split <;> nofun
  | near x => cases h; dsimp only; split <;> nofun
  | nearEnds x => cases h; dsimp only; split <;> nofun
  | _ => cases h; nofun

/-- The call did not return. -/
def PoolAns.isHung : PoolAns T → Prop
  | .hung | .call .hung => True
  | _ => False

/-- **C83**: as long as all its calls are promised, each of them ends (and panics only where C83 says so). -/
theorem C83_no_hang (b : Build) (hcap : cap ≤ um) (program : List (PoolAns T) → Deed T) (n : Nat)
    (h : (Plain.session cap um program n [] []).length = n) : ∀ a ∈ b.session cap um program n [] [], ¬ a.isHung := by
  rw [(C83_programs b hcap program n).2 h]
  have deed : ∀ (w : List (Plain T × List Deck)) (a : Deed T) {y}, Plain.deed cap um w a = some y → ¬ y.2.isHung := by
    intro w a y hy
    cases a with
    | new => cases hy; exact fun h => h
    | on i c =>
      simp only [Plain.deed] at hy
      split at hy
      · obtain ⟨z, hz, rfl⟩ := Option.map_eq_some_iff.1 hy
        cases c with
        | call q =>
          simp only [Plain.poolExec, Option.map_eq_some_iff] at hz
          obtain ⟨u, hu, rfl⟩ := hz
          have := plain_answers hu
          intro hh
          obtain ⟨_, a⟩ := u
          cases a <;> first | exact hh | exact this rfl
        | _ =>
          simp only [Plain.poolExec, Option.some.injEq] at hz
          subst hz
          repeat' (first | exact fun h => h | split)
      · cases hy; exact fun h => h
    | foreign dst src x cl limit =>
      simp only [Plain.deed] at hy
      repeat' (first | (cases hy; exact fun h => h) | split at hy)
      · cases hy
        rename_i r _ _ _ _ _ _ t _ _
        have := plain_copyTree_answer (cap := cap) (r := r) (t := t) (cl := cl) (limit := limit)
        intro hh
        dsimp only at hh
        cases e : (r.copyTree cap t cl limit).2 <;> rw [e] at hh this <;> first | exact hh | exact this rfl
    | dup i cl =>
      simp only [Plain.deed] at hy
      repeat' (first | (cases hy; exact fun h => h) | split at hy)
  have key : ∀ (k : Nat) (w : List (Plain T × List Deck)) (seen : List (PoolAns T)), (∀ a ∈ seen, ¬ a.isHung) →
      ∀ a ∈ Plain.session cap um program k w seen, ¬ a.isHung := by
    intro k
    induction k with
    | zero => intro w seen hs; exact hs
    | succ k ih =>
      intro w seen hs
      simp only [Plain.session]
      split
      · exact hs
      · rename_i y hy
        refine ih _ _ fun a ha => ?_
        rcases List.mem_append.1 ha with h | h
        · exact hs a h
        · rw [List.mem_singleton.1 h]; exact deed _ _ hy
  exact key n [] [] (by simp)

namespace SessionExample

/-- Two forests; a tree is copied from the first to the second while an iterator over the first is half-way; the second forest is
cloned while it is iterated over; then the first one is changed, which ends its iterators. -/
def deeds : List (Deed Nat) :=
  [.new, .new, .on 0 (.call (.nest 10 [.addChild 11, .createTree 12 [.addChild 13]])), .on 0 (.start (.dft 0)), .on 0 (.next 0),
   .on 1 (.call (.createRoot 20)), .on 1 (.start (.bft 0)), .foreign 1 0 2 (fun d => some (d + 100)) none, .on 1 (.next 0), .on 0 (.next 0),
   .on 1 (.start (.abft 1)), .on 1 (.next 0), .dup 1 some, .on 1 (.next 0), .on 2 (.call (.data 2)), .on 0 (.call (.detachSingle 2)),
   .on 0 (.next 0), .on 2 (.call (.detach 2)), .on 1 (.call (.link 2 .parent)), .on 2 (.call (.link 2 .parent))]

/-- What it sees. -/
example : (Build.session .release 255 255 (fun seen => (deeds[seen.length]?).getD .new) 20 [] []).drop 7 =
    [.call (.copied 1 [(2, 1), (3, 2)]), .noMethod, .item (some (.event (.opn 1))), .opened, .item (some (.level (1, 0))),
      .call (.id 2), .item (some (.level (2, 1))), .call (.datum (some 113)), .call .done, .noMethod, .call .done,
      .call (.link (some 1)), .call (.link none)] := by
  rw [(C83_programs .release (by decide) _ 20).2 (by decide +kernel)]
  decide +kernel

end SessionExample

/-! ### The hypotheses can be met

Each example applies the theorem named in its comment to a concrete forest. -/

section
/-- `C83_no_hang`: the program of the example above. -/
example := C83_no_hang .release (cap := 255) (um := 255) (by decide) (fun seen => (SessionExample.deeds[seen.length]?).getD .new) 20 (by decide +kernel)

end

end Treena
