import Verif.Proof.World
import Verif.Props.Plain
import Verif.Props.SampleRun
/-!
# Programs with several forests (C66)
-/
set_option autoImplicit false

namespace Treena
variable {T : Type}

theorem world_run (cap um : Nat) (client : List (Ans T) → Act T) : ∀ (n : Nat) {w : List (Plain T)} {v : List (Forest T)}
    (seen : List (Ans T)), Plain.Worlds w v →
    ∃ rest, worldTranscript cap um client n v seen = Plain.worldTranscript cap um client n w seen ++ rest ∧
      rest.length + (Plain.worldTranscript cap um client n w seen).length = seen.length + n
  | 0, w, v, seen, h => ⟨[], by simp [worldTranscript, Plain.worldTranscript], by simp [Plain.worldTranscript]⟩
  | n + 1, w, v, seen, h => by
    have hgrow : ∀ (k : Nat) (g : List (Forest T)) (l : List (Ans T)), ∃ rest,
        worldTranscript cap um client k g l = l ++ rest ∧ rest.length = k := by
      intro k
      induction k with
      | zero => intro g l; exact ⟨[], by simp [worldTranscript], rfl⟩
      | succ k ih =>
        intro g l
        obtain ⟨rest, h1, h2⟩ := ih ((client l).exec cap um g).1 (l ++ [((client l).exec cap um g).2])
        exact ⟨((client l).exec cap um g).2 :: rest, by simp [worldTranscript, h1], by simp [h2]⟩
    cases he : Plain.act cap um w (client seen) with
    | none =>
      obtain ⟨rest, h1, h2⟩ := hgrow (n + 1) v seen
      exact ⟨rest, by simp only [Plain.worldTranscript, he, h1], by simp only [Plain.worldTranscript, he, h2]; omega⟩
    | some y =>
      obtain ⟨h1, h2⟩ := h.act plain_new cap um (client seen) he
      obtain ⟨rest, h3, h4⟩ := world_run cap um client n (seen ++ [y.2]) h2
      refine ⟨rest, ?_, ?_⟩
      · simp only [Plain.worldTranscript, he, worldTranscript, h1, h3]
      · simp only [Plain.worldTranscript, he, h4, List.length_append, List.length_singleton]; omega

/-- **C66**.  Take any program that uses several forests: it makes new ones, calls anything on each of them, copies
trees from one to another and clones whole forests, deciding on each step by all the answers it has seen.  Its answers
are, step by step, those it would get if each forest were a naive list of trees of its own, up to the first call for
which nothing is promised; without such a call, all of them. -/
theorem C66_several_forests (cap um : Nat) (client : List (Ans T) → Act T) (n : Nat) :
    (∃ rest, worldTranscript cap um client n [] [] = Plain.worldTranscript cap um client n [] [] ++ rest) ∧
    ((Plain.worldTranscript cap um client n [] []).length = n →
      worldTranscript cap um client n [] [] = Plain.worldTranscript cap um client n [] []) := by
  obtain ⟨rest, h1, h2⟩ := world_run cap um client n [] (List.Forall₂.nil : Plain.Worlds ([] : List (Plain T)) [])
  refine ⟨⟨rest, h1⟩, fun h => ?_⟩
  have : rest = [] := List.length_eq_zero_iff.1 (by simp at h2; omega)
  rw [h1, this, List.append_nil]

/-- **C66**: a step on one forest does not touch the others; making forests does not touch those that are there. -/
theorem C66_others (cap um : Nat) (w : List (Forest T)) (a : Act T) (j : Nat) (hj : j < w.length)
    (ha : ∀ q, a ≠ .on j q) (hf : ∀ src x cl limit, a ≠ .foreign j src x cl limit) :
    (a.exec cap um w).1[j]? = w[j]? := by
  cases a with
  | new => exact List.getElem?_append_left hj
  | on i q =>
    have : i ≠ j := by rintro rfl; exact ha q rfl
    simp only [Act.exec]
    split
    · simp [this]
    · rfl
  | foreign dst src x cl limit =>
    have : dst ≠ j := by rintro rfl; exact hf src x cl limit rfl
    simp only [Act.exec]
    split
    · split
      · simp [this]
      · rfl
    · rfl
  | dup i cl =>
    simp only [Act.exec]
    split
    · split
      · exact List.getElem?_append_left hj
      · rfl
    · rfl

/-- **C66**: the only steps for which nothing is promised are calls on a forest for which nothing is promised
(see `C65_promised`). -/
theorem C66_promised (cap um : Nat) (w : List (Plain T)) (a : Act T) (h : Plain.act cap um w a = none) :
    ∃ i q r, a = .on i q ∧ w[i]? = some r ∧ r.exec cap um q = none := by
  cases a with
  | new => cases h
  | on i q =>
    simp only [Plain.act] at h
    split at h
    · rename_i r hr
      exact ⟨i, q, r, rfl, hr, by simpa using h⟩
    · cases h
  | foreign dst src x cl limit =>
    simp only [Plain.act] at h
    split at h
    · split at h
      · split at h <;> cases h
      · cases h
    · cases h
  | dup i cl =>
    simp only [Plain.act] at h
    split at h
    · split at h <;> cases h
    · cases h

/-- Two forests: a tree of the first is copied into the second (once completely, once with a callback that panics in
its second call), the first is cloned, and all three go on separately. -/
example : worldTranscript 100 1000 (fun seen => ([.new, .new, .on 0 (.nest 1 [.addChild 2, .createTree 3 [.addChild 4]]),
    .on 1 (.createRoot 7), .foreign 1 0 2 (fun d => some (d + 10)) none, .foreign 1 0 0 (fun d => some (d + 20)) (some 1),
    .foreign 1 1 0 some none, .dup 0 (fun d => some (d + 30)), .dup 0 (fun d => if d = 4 then none else some d), .on 0 (.remove 2 none),
    .on 2 (.dft 2 [.front, .front, .back]), .on 1 (.link 3 .lastChild), .on 1 (.data 4), .on 0 (.alive 2), .on 2 (.createRoot 0),
    .on 0 (.createRoot 0), .on 1 (.alive 5)] : List (Act Nat))[seen.length]?.getD .new) 17 [] [] =
    [.id 0, .id 1, .id 0, .id 0, .copied 1 [(2, 1), (3, 2)], .panicked, .absent, .id 2, .panicked, .dropped [4, 3],
      .events [some (.opn 2), some (.opn 3), some (.cls 2)], .link (some 4), .datum (some 22), .flag false, .id 4, .id 4,
      .flag false] := by
  rw [(C66_several_forests 100 1000 _ 17).2 (by decide +kernel)]
  decide +kernel

/-! ### The hypotheses can be met

Each example applies the theorem named in its comment to a concrete forest. -/

section
/-- `C66_others`: a call on forest 0 leaves forest 1 alone. -/
example := C66_others 100 255 [Sample.built, Forest.new] (.on 0 (.remove 2 none)) 1 (by decide) (by simp) (by simp)

/-- `C66_promised`: inserting the only child of the root of forest 1 where it is. -/
example := C66_promised 100 255 [Plain.empty, (⟨2, [.node (0, 10) [.node (1, 11) []]]⟩ : Plain Nat)] (.on 1 (.insert 1 (.lastChildOf 0))) rfl

end

end Treena
