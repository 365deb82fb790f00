import Verif.Proof.LocalBuild
import Verif.Props.ReleaseHist
import Verif.Props.Build
import Verif.Props.CopyAny
/-!
# C91: programs go on after damage, in both builds

`Spec/Salvage.lean` has the vocabulary.
-/
set_option autoImplicit false

namespace Treena
variable {T S : Type} {cap um : Nat} {Q : Nat → Prop} {f g : Forest T}

theorem Build.contained (b : Build) (cap : Nat) (ops : List (Op T)) :
    Contained cap (b.run cap Forest.new ops) (b.taint cap ops) := by
  cases b with
  | debug => exact (Contained.start new_consistent (Nat.zero_le _)).run ops
  | release => exact Release.contained_run ops (Contained.start new_consistent (Nat.zero_le _))

theorem Contained.salvage {B : Nat → Prop} (h : Contained cap f B) :
    ∃ r : Plain T, r.issued = f.issued ∧
      (∀ x, r.alive x = true ↔ f.isAlive x = true ∧ ¬ B x) ∧
      (∀ x, r.alive x = true → f.getData x = (Wood.findL x r.trees).map (fun t => t.root.2) ∧
        ∀ k, Req.linkOf f x k = .ok (r.link x k)) ∧
      ∀ (b : Build) (um : Nat), cap ≤ um → ∀ (client : List (PoolAns T) → PoolReq T) (n : Nat),
        (∀ k, k < n → ∀ x ∈ (client (b.poolTranscript cap um client k (f, []) [])).ids, f.isAlive x = true → ¬ B x) →
        (∃ rest, b.poolTranscript cap um client n (f, []) [] = Plain.poolTranscript cap um client n (r, []) [] ++ rest) ∧
        ((Plain.poolTranscript cap um client n (r, []) []).length = n →
          b.poolTranscript cap um client n (f, []) [] = Plain.poolTranscript cap um client n (r, []) []) := by
  obtain ⟨s, hm⟩ := h.sound
  obtain ⟨r, hr⟩ := plain_exists hm
  have hiss : (f.without B).issued = f.issued := by
    unfold Forest.issued Forest.without; simp
  have hal : ∀ x, r.alive x = true ↔ f.isAlive x = true ∧ ¬ B x := fun x => by
    rw [hr.alive, h.aliveS hm]; exact And.comm
  refine ⟨r, ?_, hal, fun x hx => ?_, fun b um hum client n hq => ?_⟩
  · rw [← hr.size, ← hiss]; exact hm.dataLen.symm
  · have hc : Clean f B x := .inl ((hal x).1 hx).2
    rw [hr.alive] at hx
    refine ⟨?_, fun k => (Forest.linkOf_same h.clean hc k).1.trans (hr.linkOf hx k)⟩
    rw [h.clean.data x hc, hr.getData]
  · have e := b.transcript_local (p := []) cap um client n [] (Q := Clean f B)
      (fun k hk x hx => by
        cases e : f.isAlive x with
        | true => exact .inl (hq k hk x hx e)
        | false => exact .inr e) h.clean (fun _ hi => by cases hi)
    obtain ⟨rest, h1, h2⟩ := build_run b cap um hum client n [] hr (p := []) (q := []) .nil (by rw [hiss]; exact h.low)
      (fun _ h => by cases h)
    rw [e]
    refine ⟨⟨rest, h1⟩, fun h => ?_⟩
    have : rest = [] := List.length_eq_zero_iff.1 (by simp at h2; omega)
    rw [h1, this, List.append_nil]

/-- **C91**.  Take any history of a build, with calls that destroy trees.  There is a naive forest `r` whose nodes are the live nodes
that are not tainted, with the data and links they have in the real forest, such that from now on every client – keeping iterators,
calling anything, deciding by all answers it has seen – that gives no live tainted node gets the answers of the naive forest,
up to the first call for which nothing is promised; without such a call, all of them. -/
theorem C91_clients_go_on (b : Build) (cap : Nat) (ops : List (Op T)) :
    ∃ r : Plain T, r.issued = (b.run cap Forest.new ops).issued ∧
      (∀ x, r.alive x = true ↔ (b.run cap Forest.new ops).isAlive x = true ∧ ¬ b.taint cap ops x) ∧
      (∀ x, r.alive x = true →
        (b.run cap Forest.new ops).getData x = (Wood.findL x r.trees).map (fun t => t.root.2) ∧
        ∀ k, Req.linkOf (b.run cap Forest.new ops) x k = .ok (r.link x k)) ∧
      ∀ (um : Nat), cap ≤ um → ∀ (client : List (PoolAns T) → PoolReq T) (n : Nat),
        (∀ k, k < n → ∀ x ∈ (client (b.poolTranscript cap um client k (b.run cap Forest.new ops, []) [])).ids,
          (b.run cap Forest.new ops).isAlive x = true → ¬ b.taint cap ops x) →
        (∃ rest, b.poolTranscript cap um client n (b.run cap Forest.new ops, []) [] =
          Plain.poolTranscript cap um client n (r, []) [] ++ rest) ∧
        ((Plain.poolTranscript cap um client n (r, []) []).length = n →
          b.poolTranscript cap um client n (b.run cap Forest.new ops, []) [] = Plain.poolTranscript cap um client n (r, []) []) := by
  obtain ⟨r, h1, h2, h3, h4⟩ := (b.contained cap ops).salvage
  exact ⟨r, h1, h2, h3, h4 b⟩

/-- **C91**, one call: a call of a build that is given nodes of a separate part `Q` only does the same in two forests that agree
in `Q`, whatever the rest of them is, and changes nothing outside of `Q`. -/
theorem C91_calls_are_local (b : Build) (h : SameIn cap Q f g) (q : Req T) (hq : ∀ x ∈ q.ids, Q x) :
    (b.exec cap um f q).2 = (b.exec cap um g q).2 ∧ SameIn cap Q (b.exec cap um f q).1 (b.exec cap um g q).1 ∧
      SameOut cap Q f (b.exec cap um f q).1 := b.exec_local cap um h q hq

/-- **C91**, iterators: a client of a build that keeps iterators cannot tell two such forests apart, as long as it gives nodes of `Q`
only. -/
theorem C91_iterators_are_local (b : Build) (h : SameIn cap Q f g) (client : List (PoolAns T) → PoolReq T) (n : Nat)
    (hq : ∀ k, k < n → ∀ x ∈ (client (b.poolTranscript cap um client k (f, []) [])).ids, Q x) :
    b.poolTranscript cap um client n (f, []) [] = b.poolTranscript cap um client n (g, []) [] :=
  b.transcript_local cap um client n [] hq h fun _ hi => by cases hi

/-- **C91**, the builds: after a history without `remove_hooked_panic_safe` (whose assertion can fail in a damaged tree), a client that
gives no live tainted node and stays within the promised calls cannot find out how the crate was compiled. -/
theorem C91_indistinguishable (ops : List (Op T)) (hops : ∀ op ∈ ops, ∀ S hook c x, op ≠ .removeHookedPanicSafe S hook c x)
    (hcap : cap ≤ um) : ∃ r : Plain T, ∀ (client : List (PoolAns T) → PoolReq T) (n : Nat),
    (∀ b : Build, ∀ k, k < n → ∀ x ∈ (client (b.poolTranscript cap um client k (b.run cap Forest.new ops, []) [])).ids,
      (b.run cap Forest.new ops).isAlive x = true → ¬ b.taint cap ops x) →
    (Plain.poolTranscript cap um client n (r, []) []).length = n →
    ∀ b : Build, b.poolTranscript cap um client n (b.run cap Forest.new ops, []) [] = Plain.poolTranscript cap um client n (r, []) [] := by
  obtain ⟨r, _, _, _, h4⟩ := (Build.debug.contained cap ops).salvage
  obtain ⟨e1, e2⟩ := Release.taint_same (cap := cap) ops Forest.new (fun _ => False) hops
  have er : ∀ b : Build, b.run cap Forest.new ops = Build.debug.run cap Forest.new ops := fun b => by
    cases b with
    | debug => rfl
    | release => exact e2
  have et : ∀ b : Build, b.taint cap ops = Build.debug.taint cap ops := fun b => by
    cases b with
    | debug => rfl
    | release => exact e1
  refine ⟨r, fun client n hq hn b => ?_⟩
  have := hq b
  rw [et, er] at this
  rw [er]
  exact (h4 b um hcap client n this).2 hn

/-- **C91**, copies: in either build, after any history, `clone_local_tree_with_id_mapping` is as C90 says. -/
theorem C91_local_copies (b : Build) (cap : Nat) (ops : List (Op T)) (cl : T → Option T) (hook : Forest.MapHook S) (c : S) (x : Nat) :
    CopiesAny cap false cl hook (b.run cap Forest.new ops) x (b.run cap Forest.new ops) c
      (b.pick Forest.cloneLocalTreeWithIdMapping Release.Forest.cloneLocalTreeWithIdMapping cap cl hook x (b.run cap Forest.new ops, c)) := by
  have h := b.contained cap ops
  have := CopyResult.any (copy_local h.bounded h.coh (gone_same (cap := cap) h.coh) (gone_models h.coh) (cl := cl) hook c x)
  cases b with
  | debug => exact this
  | release => simp only [Build.pick, Release.cloneLocal_eq]; exact this

/-- **C91**, copies: so is `clone_foreign_tree_with_id_mapping`; its code is the same in both builds. -/
theorem C91_foreign_copies (b : Build) (cap cap' : Nat) (ops ops' : List (Op T)) (cl : T → Option T) (hook : Forest.MapHook S) (c : S) (x : Nat) :
    CopiesAny cap true cl hook (b.run cap' Forest.new ops') x (b.run cap Forest.new ops) c
      (Forest.cloneForeignTreeWithIdMapping cap cl hook (b.run cap' Forest.new ops') x (b.run cap Forest.new ops, c)) := by
  have h := b.contained cap ops
  have h' := b.contained cap' ops'
  exact CopyResult.any (copy_foreign h'.coh (gone_same (cap := cap) h.coh) (gone_models h.coh) hook c x)

/-! ### Non-vacuity -/

namespace SalvageExample

/-- A client of the forest in which the tree of `2`, `3`, `4` has been destroyed: it works on the other two trees, with iterators,
and copies one below the other. -/
def calls : List (PoolReq Nat) :=
  [.start (.shallow 1 none), .next 0, .nextBack 0, .start (.abft 1), .next 0, .next 1, .peek 1, .next 1, .call (.dup 1 some), .call (.insert 6 (.lastChildOf 0)),
    .start (.dft 0), .next 0, .next 0, .next 0, .call (.detachSingle 6), .call (.removeSafe 1 (some 0)), .call (.print 0 fun d => [[Char.ofNat (d + 87)]]), .call (.link 7 .parent)]

def client : List (PoolAns Nat) → PoolReq Nat := fun seen => (calls[seen.length]?).getD (.next 0)

theorem client_ids (seen : List (PoolAns Nat)) : ∀ x ∈ (client seen).ids, x = 0 ∨ x = 1 ∨ x = 6 ∨ x = 7 := by
  have : ∀ c ∈ calls, ∀ x ∈ c.ids, x = 0 ∨ x = 1 ∨ x = 6 ∨ x = 7 := by decide
  unfold client
  cases e : calls[seen.length]? with
  | none => intro x hx; cases hx
  | some c => exact this c (List.mem_of_getElem? e)

theorem beside_taint_build (b : Build) : b.taint 100 besideHistory = taint 100 Forest.new (fun _ => False) besideHistory := by
  cases b with
  | debug => rfl
  | release => exact beside_release.1

theorem never_tainted (b : Build) (seen : List (PoolAns Nat)) : ∀ x ∈ (client seen).ids,
    (b.run 100 Forest.new besideHistory).isAlive x = true → ¬ b.taint 100 besideHistory x := fun x hx _ h => by
  rw [beside_taint_build] at h
  have := beside_taint x h
  have := client_ids seen x hx
  omega

/-- What the client sees: the destroyed tree does not matter, in either build. -/
example (b : Build) : (b.poolTranscript 100 1000 client 18 (b.run 100 Forest.new besideHistory, []) []).drop 8 =
    [.call (.id 6), .call .done, .opened, .item (some (.event (.opn 0))), .item (some (.event (.opn 6))), .item (some (.event (.opn 7))),
      .call .done, .call .panicked, .call (.text true "a\n`-- f".toList), .call (.link (some 0))] := by
  cases b <;> decide +kernel

/-- These are the answers of the naive forest with the trees of `0` and of `1`. -/
example (b : Build) : b.poolTranscript 100 1000 client 18 (b.run 100 Forest.new besideHistory, []) [] =
    Plain.poolTranscript 100 1000 client 18 (⟨6, [.node (0, 10) [], .node (1, 11) [.node (5, 15) []]]⟩, []) [] := by
  cases b <;> decide +kernel

/-- `C91_clients_go_on` applies to it. -/
example (b : Build) : ∃ r : Plain Nat, (∀ x, x = 0 ∨ x = 1 ∨ x = 5 → r.alive x = true) ∧ r.link 5 .parent = some 1 ∧
    ∃ rest, b.poolTranscript 100 1000 client 18 (b.run 100 Forest.new besideHistory, []) [] =
      Plain.poolTranscript 100 1000 client 18 (r, []) [] ++ rest := by
  obtain ⟨r, _, ha, hl, h⟩ := C91_clients_go_on b 100 besideHistory
  have hr : b.run 100 Forest.new besideHistory = Op.run 100 Forest.new besideHistory := by
    cases b with
    | debug => rfl
    | release => exact beside_release.2
  rw [beside_taint_build, hr] at ha
  rw [hr] at hl
  have key : ∀ x, x = 0 ∨ x = 1 ∨ x = 5 → r.alive x = true := fun x hx => (ha x).2 ⟨by rcases hx with rfl | rfl | rfl <;> decide,
    fun ht => by have := beside_taint x ht; omega⟩
  refine ⟨r, key, ?_, (h 1000 (by decide) client 18 fun k _ => never_tainted b _).1⟩
  have e := (hl 5 (key 5 (by simp))).2 .parent
  rw [show Req.linkOf (Op.run 100 (Forest.new : Forest Nat) besideHistory) 5 .parent = .ok (some 1) by decide] at e
  exact (Except.ok.inj e).symm

end SalvageExample

/-! ### The hypotheses can be met

Each example applies the theorem named in its comment to a concrete forest. -/

section
/-- `C91_calls_are_local`: node 6, and the sample forest before and after `detach(2)`. -/
example := C91_calls_are_local (um := 255) .release Sample.same_six (.bft 6 2) (by simp [Req.ids, Sample.six])

/-- `C91_iterators_are_local`: the same, with an iterator. -/
example := C91_iterators_are_local (um := 255) .release Sample.same_six (fun seen => if seen = [] then .start (.abft 6) else .next 0) 4
  (fun k _ x hx => by
    split at hx
    · simp only [PoolReq.ids, IterReq.node, List.mem_singleton] at hx; subst hx; simp [Sample.six]
    · cases hx)

/-- `C91_indistinguishable`: the history and the client above. -/
example := C91_indistinguishable (cap := 100) (um := 1000) besideHistory (fun op ho S hook c x e => by subst e; simp [besideHistory] at ho) (by decide)

/-- `C91_local_copies`: a copy of the destroyed tree in a release build. -/
example := C91_local_copies .release 100 besideHistory some (S := Unit) (fun s _ _ => .ok s) () 2

end

end Treena
