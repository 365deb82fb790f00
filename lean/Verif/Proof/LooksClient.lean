import Verif.Proof.Looks
/-!
# How much of a forest a client looks at
-/
set_option autoImplicit false
namespace Treena
variable {T : Type} {α β γ : Type} {f : Forest T} {j k : Nat} {cap um : Nat}

theorem Iter.start_brief {g : Forest T} {q : IterReq} {it : Iter} (hq : ∀ x, q ≠ .bft x ∧ q ≠ .abft x) (h : Iter.start um g q = .ok it) :
    it.Brief := by
  have key : ∀ {σ : Type} {c : σ → Iter} {r : R σ}, (∀ s, (c s).Brief) → Iter.made c r = .ok it → it.Brief := by
    intro σ c r hc h
    cases r with
    | ok s => cases h; exact hc s
    | error e => cases h
  cases q with
  | dft x => exact key (fun _ => by trivial) h
  | shallow x m => exact key (fun _ => by trivial) h
  | bft x => exact absurd rfl (hq x).1
  | abft x => exact absurd rfl (hq x).2
  | ancestors x self => exact key (fun _ => by trivial) h
  | row x l => exact key (fun _ => by trivial) h

theorem Iter.lift_brief {ι σ : Type} {c : ι → Item} {c' : σ → Iter} {r : R (Option ι × σ)} {o : Option Item} {it : Iter}
    (hc : ∀ s, (c' s).Brief) (h : Iter.lift c c' r = .ok (o, it)) : it.Brief := by
  rcases r with e | ⟨o, s⟩
  · cases h
  · cases h; exact hc s
theorem Build.next_brief (b : Build) {g : Forest T} {it it' : Iter} {o : Option Item} (hi : it.Brief)
    (h : b.next um g it = .ok (o, it')) : it'.Brief := by
  cases it with
  | dft st => exact Iter.lift_brief (fun _ => by trivial) h
  | shallow st => exact Iter.lift_brief (fun _ => by trivial) h
  | bft st => exact hi.elim
  | abft st => exact hi.elim
  | ancestors st => exact Iter.lift_brief (fun _ => by trivial) h
  | siblings st => exact Iter.lift_brief (fun _ => by trivial) h
theorem Build.nextBack_brief (b : Build) {g : Forest T} {it it' : Iter} {o : Option Item}
    (h : b.nextBack um g it = some (.ok (o, it'))) : it'.Brief := by
  cases it with
  | dft st => exact Iter.lift_brief (fun _ => by trivial) (Option.some.inj h)
  | shallow st => exact Iter.lift_brief (fun _ => by trivial) (Option.some.inj h)
  | bft st => cases h
  | abft st => cases h
  | ancestors st => cases h
  | siblings st => exact Iter.lift_brief (fun _ => by trivial) (Option.some.inj h)

theorem set_brief {its : List Iter} {i : Nat} {it' : Iter} (hb : ∀ it ∈ its, it.Brief) (h : it'.Brief) :
    ∀ it ∈ its.set i it', it.Brief := fun it hit => by
  rcases List.mem_or_eq_of_mem_set hit with h' | h'
  · exact hb it h'
  · rw [h']; exact h
theorem add_brief {its : List Iter} {it' : Iter} (hb : ∀ it ∈ its, it.Brief) (h : it'.Brief) : ∀ it ∈ its ++ [it'], it.Brief :=
  fun it hit => by
    rcases List.mem_append.mp hit with h' | h'
    · exact hb it h'
    · rw [List.mem_singleton.mp h']; exact h

theorem Req.slots_keep {q : Req T} {n : Nat} (hq : q.slots = some n) (b : Build) (g : Forest T) :
    (b.exec cap um g q).1 = g ∧ q.borrows = true := by
  cases q with
  | link x l => exact ⟨rfl, rfl⟩
  | near x l => exact ⟨rfl, rfl⟩
  | alive | data | ends | nearEnds | dft | shallow | ancestors | row => exact ⟨rfl, rfl⟩
  | _ => cases hq

theorem PoolReq.start_ne {q : IterReq} {n : Nat} (hp : (PoolReq.start q : PoolReq T).slots = some n) :
    (∀ x, q ≠ .bft x ∧ q ≠ .abft x) ∧ n = 6 := by
  cases q with
  | bft x => cases hp
  | abft x => cases hp
  | dft | shallow | ancestors | row => cases hp; exact ⟨fun x => ⟨nofun, nofun⟩, rfl⟩

/-- A quick call leaves the forest alone, and all iterators have a bounded `next`. -/
theorem Build.quick_keeps (b : Build) {its : List Iter} (hb : ∀ it ∈ its, it.Brief) {p : PoolReq T} {n : Nat} (hp : p.slots = some n)
    (g : Forest T) : (b.poolExec cap um (g, its) p).1.1 = g ∧ ∀ it ∈ (b.poolExec cap um (g, its) p).1.2, it.Brief := by
  cases p with
  | call q =>
    obtain ⟨h1, h2⟩ := Req.slots_keep (cap := cap) (um := um) hp b g
    refine ⟨h1, ?_⟩
    simp only [Build.poolExec, h2, if_true]
    exact hb
  | start q =>
    have hq := (PoolReq.start_ne hp).1
    simp only [Build.poolExec, PoolReq.exec]
    cases h : Iter.start um g q with
    | ok it => exact ⟨rfl, add_brief hb (Iter.start_brief hq h)⟩
    | error e => exact ⟨rfl, hb⟩
  | next i =>
    simp only [Build.poolExec]
    cases h : its[i]? with
    | none => exact ⟨rfl, hb⟩
    | some it =>
      dsimp only
      have hi := hb it (List.mem_of_getElem? h)
      cases h' : b.next um g it with
      | ok r => exact ⟨rfl, set_brief hb (b.next_brief hi h')⟩
      | error e => exact ⟨rfl, hb⟩
  | nextBack i =>
    simp only [Build.poolExec]
    cases h : its[i]? with
    | none => exact ⟨rfl, hb⟩
    | some it =>
      dsimp only
      rcases h' : b.nextBack um g it with _ | e | r
      · exact ⟨rfl, hb⟩
      · exact ⟨rfl, hb⟩
      · exact ⟨rfl, set_brief hb (b.nextBack_brief h')⟩
  | peek i =>
    simp only [Build.poolExec]
    cases h : its[i]? with
    | none => exact ⟨rfl, hb⟩
    | some it =>
      dsimp only
      rcases h' : b.peek um g it with _ | e | r <;> exact ⟨rfl, hb⟩
  | peekBack i =>
    simp only [Build.poolExec, PoolReq.exec]
    cases h : its[i]? with
    | none => exact ⟨rfl, hb⟩
    | some it =>
      dsimp only
      rcases h' : it.peekBack g with _ | e | r <;> exact ⟨rfl, hb⟩
  | maxDepth i =>
    simp only [Build.poolExec, PoolReq.exec]
    cases h : its[i]? with
    | none => exact ⟨rfl, hb⟩
    | some it =>
      dsimp only
      rcases h' : it.maxDepth with _ | r <;> exact ⟨rfl, hb⟩
  | dup i =>
    simp only [Build.poolExec, PoolReq.exec]
    cases h : its[i]? with
    | none => exact ⟨rfl, hb⟩
    | some it => exact ⟨rfl, add_brief hb (hb it (List.mem_of_getElem? h))⟩

namespace Looks

theorem quick (b : Build) {its : List Iter} (hb : ∀ it ∈ its, it.Brief) {p : PoolReq T} {n : Nat} (hp : p.slots = some n) :
    Looks n f fun g => ((b.poolExec cap um (g, its) p).1.2, (b.poolExec cap um (g, its) p).2) := by
  cases p with
  | call q =>
    exact on (K := fun v _ => (if q.borrows then its else [], PoolAns.call v)) (lookUp q hp b cap um) 0 (Nat.le_refl _)
      (fun g v e => by rw [← e]; rfl) fun v _ => const _
  | start q =>
    obtain ⟨hq, rfl⟩ := PoolReq.start_ne hp
    simp only [Build.poolExec, PoolReq.exec]
    look (start um q hq) 0 with (e | it)
  | next i =>
    cases hp
    simp only [Build.poolExec]
    cases h : its[i]? with
    | none => dsimp only; exact const _
    | some it =>
      dsimp only
      look (next b um (hb it (List.mem_of_getElem? h))) 0 with (e | ⟨o, it'⟩)
  | nextBack i =>
    cases hp
    simp only [Build.poolExec]
    cases h : its[i]? with
    | none => dsimp only; exact const _
    | some it =>
      dsimp only
      look (nextBack b um it) 0 with (_ | e | ⟨o, it'⟩)
  | peek i =>
    cases hp
    simp only [Build.poolExec]
    cases h : its[i]? with
    | none => dsimp only; exact const _
    | some it =>
      dsimp only
      look (peek b um it) 0 with (_ | e | o)
  | peekBack i =>
    cases hp
    simp only [Build.poolExec, PoolReq.exec]
    cases h : its[i]? with
    | none => dsimp only; exact const _
    | some it =>
      dsimp only
      look (peekBack it) 0 with (_ | e | o)
  | maxDepth i =>
    cases hp
    simp only [Build.poolExec, PoolReq.exec]
    cases h : its[i]? with
    | none => dsimp only; exact const _
    | some it =>
      dsimp only
      cases it.maxDepth <;> dsimp only <;> exact const _
  | dup i =>
    cases hp
    simp only [Build.poolExec, PoolReq.exec]
    cases h : its[i]? <;> dsimp only <;> exact const _

theorem transcript (b : Build) {client : List (PoolAns T) → PoolReq T} (hc : ∀ seen, ∃ m, (client seen).slots = some m ∧ m ≤ k) :
    ∀ (n : Nat) {its : List Iter} (_ : ∀ it ∈ its, it.Brief) (seen : List (PoolAns T)),
      Looks (n * k) f fun g => b.poolTranscript cap um client n (g, its) seen
  | 0, _, _, _ => const _
  | n + 1, its, hb, seen => by
    obtain ⟨m, hm, hk⟩ := hc seen
    refine on (K := fun v g => b.poolTranscript cap um client n (g, v.1) (seen ++ [v.2])) (quick b hb hm (cap := cap) (um := um)) (n * k)
      (by rw [Nat.add_mul]; omega) ?_ ?_
    · intro g v e
      subst e
      simp only [Build.poolTranscript]
      rw [← (b.quick_keeps (cap := cap) (um := um) hb hm g).1]
      rw [(b.quick_keeps (cap := cap) (um := um) hb hm g).1]
      congr 1
      exact Prod.ext (b.quick_keeps (cap := cap) (um := um) hb hm g).1 rfl
    · intro v e
      subst e
      exact transcript b hc n (b.quick_keeps (cap := cap) (um := um) hb hm f).2 _
end Looks
end Treena
