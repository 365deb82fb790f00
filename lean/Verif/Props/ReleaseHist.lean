import Verif.Proof.ReleaseHist
import Verif.Spec.LocalRelease
import Verif.Props.Local
import Verif.Props.SampleRun
/-!
# C74: the guarantees for all histories hold in release builds

C03, C04, C34, C49, C52, C68 and C69 are proved for the model with debug assertions; in a forest destroyed by an
in-place insertion or a panicking hook the builds may part (`C63_destroyed_forest_differs`).  Here the same guarantees are
proved for the release build (`Release.run`), for all histories, harmful calls included. -/
set_option autoImplicit false

namespace Treena
variable {T U : Type} {cap : Nat} {f : Forest T}

/-- **C74**, where the builds differ at all: a call leaves the same forest in both builds, whatever the forest, unless it is
`remove_hooked_panic_safe`; and new IDs are the same. -/
theorem C74_same_forest (f : Forest T) (op : Op T) (h : ∀ S hook c x, op ≠ .removeHookedPanicSafe S hook c x) :
    Release.step cap f op = Op.step cap f op := Release.step_same f op h

/-- **C74**, fresh IDs and no resurrection (C03), in release builds. -/
theorem C74_ids (cap : Nat) (ops1 ops2 : List (Op T)) :
    (∀ (op : Op T) (id : Nat), Op.newId cap (Release.run cap Forest.new (ops1 ++ ops2)) op = some id →
      (Release.run cap Forest.new ops1).isAlive id = false ∧ (Release.run cap Forest.new ops1).issued ≤ id ∧
      (Release.run cap Forest.new (ops1 ++ ops2 ++ [op])).isAlive id = true) ∧
    (∀ x, x < (Release.run cap (Forest.new : Forest T) ops1).issued → (Release.run cap (Forest.new : Forest T) ops1).isAlive x = false →
      (Release.run cap Forest.new (ops1 ++ ops2)).isAlive x = false) := by
  have hsplit : Release.run cap (Forest.new : Forest T) (ops1 ++ ops2) = Release.run cap (Release.run cap Forest.new ops1) ops2 := by
    simp [Release.run]
  have hc1 : Coherent (Release.run cap (Forest.new : Forest T) ops1) := (Release.run_evolves ops1 _ coherent_new).1
  obtain ⟨hc, hl⟩ := Release.run_evolves (cap := cap) ops2 _ hc1
  refine ⟨fun op id h => ?_, fun x hx hd => by rw [hsplit]; exact hl.dead x hx hd⟩
  rw [← hsplit] at hc hl
  obtain ⟨h1, d, l, h2⟩ := newId_new _ op h hc
  have hle : (Release.run cap (Forest.new : Forest T) ops1).issued ≤ id := by rw [h1]; exact hl.issued
  refine ⟨dead_of_ge hle, hle, ?_⟩
  have h3 : Release.run cap (Forest.new : Forest T) (ops1 ++ ops2 ++ [op]) =
      Release.step cap (Release.run cap Forest.new (ops1 ++ ops2)) op := by simp [Release.run]
  rw [h3, Release.step_same _ op (by rintro S hook c x rfl; cases h)]
  unfold Forest.isAlive
  rw [h2, h1]
  simp [Forest.issued]

/-- **C74**, liveness (C04) and capacity (C52) in release builds: after every history `data(id)` is `Some` exactly when
`is_alive(id)` and exactly when the structure regards `id` as live, the accessors of a live node do not hit the panics
"the node has been checked to be alive", and there are at most `cap` IDs. -/
theorem C74_liveness (cap : Nat) (ops : List (Op T)) :
    (∀ x, ((Release.run cap Forest.new ops).getData x).isSome = (Release.run cap Forest.new ops).isAlive x ∧
      (Release.run cap Forest.new ops).hier.isAlive x = (Release.run cap Forest.new ops).isAlive x ∧
      ((Release.run cap Forest.new ops).isAlive x = true →
        (∃ d, (Release.run cap Forest.new ops).nodeData x = .ok d) ∧
        (∃ p, (Release.run cap Forest.new ops).parentId x = .ok p) ∧
        (∃ n, (Release.run cap Forest.new ops).nextSiblingId x = .ok n) ∧
        (∃ c, (Release.run cap Forest.new ops).firstChildId x = .ok c))) ∧
    (Release.run cap (Forest.new : Forest T) ops).issued ≤ cap := by
  have hc := ((Release.run_fits (cap := cap) ops (Forest.new : Forest T)) coherent_new)
  obtain ⟨_, h⟩ := coherent_accessors hc.1
  exact ⟨fun x => ⟨(h x).1, (h x).2.1, fun hx => ⟨((h x).2.2 hx).1, ((h x).2.2 hx).2.2⟩⟩, hc.2 (Nat.zero_le _)⟩

/-- **C74**, data (C34) in release builds: a call that neither removes nor writes data keeps all data; a removal keeps each
datum or drops it. -/
theorem C74_data (f : Forest T) (op : Op T) :
    (op.structural = true → ∀ x, x < f.issued → (Release.step cap f op).getData x = f.getData x) ∧
    (op.structural = false → (∀ id v, op ≠ .setData id v) →
      ∀ x, (Release.step cap f op).getData x = f.getData x ∨ (Release.step cap f op).getData x = none) := by
  refine ⟨fun h x hx => ?_, fun h hs x => ?_⟩
  · rw [Release.step_same f op (by rintro S hook c x rfl; cases h)]
    exact (C34_structure_keeps_data cap f op h).2 x hx
  · exact Release.step_split (P := fun g => g.getData x = f.getData x ∨ g.getData x = none) f op
      ((C34_removal_keeps_surviving_data cap f op h hs).2 x) fun S hook c y _ => (Release.removePanicSafe_sub hook y (f, c)).2 x

/-- **C74**, the structure does not depend on the data (C49), in release builds. -/
theorem C74_data_free (g : T → U) {ops : List (Op T)} {ops' : List (Op U)} (h : SameHistory g ops ops')
    (f : Forest T) : Release.run cap (f.mapData g) ops' = (Release.run cap f ops).mapData g := by
  induction h generalizing f with
  | nil => rfl
  | cons h _ ih =>
    simp only [Release.run, List.foldl_cons]
    rw [Release.step_comm g h f]
    exact ih _

/-- **C74**, locality (C68) in release builds: if two forests (consistent or not) agree on a part `Q` closed under links, a call
given IDs of `Q` leaves forests that agree on `Q`, and changes nothing outside of `Q`. -/
theorem C74_local {Q : Nat → Prop} {g : Forest T} (h : SameIn cap Q f g) (op : Op T) (hq : ∀ x ∈ op.ids, Q x) :
    SameIn cap Q (Release.step cap f op) (Release.step cap g op) ∧ SameOut cap Q f (Release.step cap f op) :=
  Release.step_local h op hq

theorem Release.contained_step {B : Nat → Prop} (h : Contained cap f B) (op : Op T) :
    Contained cap (Release.step cap f op) (Release.taintStep cap f B op) := by
  rcases op.targets_eq with ht | ⟨S, cl, hook, c, x, rfl⟩
  case inr =>
    have e1 : Release.taintStep cap f B (.cloneLocal S cl hook c x) = B := by
      unfold Release.taintStep
      rw [if_neg]
      rintro (⟨y, hy, _⟩ | h)
      · cases hy
      · exact h
    rw [e1, Release.step_same f _ (fun _ _ _ _ e => by cases e)]
    exact h.copy cl hook c x
  unfold Release.taintStep
  rw [ht]
  split
  · exact Contained.bad_of (Release.tame op) h
  · rename_i hn
    have hq : ∀ x ∈ op.ids, Clean f B x := fun x hx => by
      cases e : f.isAlive x with
      | false => exact .inr e
      | true => exact .inl fun hb => hn (.inl ⟨x, hx, hb, e⟩)
    have hh : ¬ op.Harmful (f.without B) := fun hh => hn (.inr ((harmful_local h.clean op hq).2 hh))
    obtain ⟨s, hm⟩ := h.sound
    refine (Contained.good_of (Release.tame op) h hq ?_).1
    show Consistent (Release.step cap (f.without B) op)
    rw [Release.step_models cap hm op]
    rcases step_cases (cap := cap) hm op with h | h
    · exact h.1
    · exact absurd h.2 hh

theorem Release.contained_run (ops : List (Op T)) : ∀ {f : Forest T} {B : Nat → Prop}, Contained cap f B →
    Contained cap (Release.run cap f ops) (Release.taint cap f B ops) := by
  induction ops with
  | nil => intro f B h; exact h
  | cons op ops ih => intro f B h; exact ih (Release.contained_step h op)

/-- **C74**, damage is contained (C69), in release builds.  Take any history, with calls that destroy trees, and let the
tainted nodes be those in the trees given to harmful calls, and whatever was in a tree given to a call together with one of
them since.  Then the rest of the forest is a well-formed ordered forest `s`: all accessors agree with it on
all other nodes; and every further call of the interface that is given no live tainted node is answered as if the tainted nodes had been
removed. -/
theorem C74_damage_is_contained (cap um : Nat) (ops : List (Op T)) :
    (∃ s : Shape, s.Valid ∧
      (∀ x, s.alive x = true ↔
        (Release.run cap Forest.new ops).isAlive x = true ∧ ¬ Release.taint cap Forest.new (fun _ => False) ops x) ∧
      ∀ x, s.alive x = true →
        (Release.run cap Forest.new ops).parentId x = .ok (s.parent x) ∧
        (Release.run cap Forest.new ops).nextSiblingId x = .ok (s.next x) ∧
        (Release.run cap Forest.new ops).prevSiblingId x = .ok (s.prev x) ∧
        (Release.run cap Forest.new ops).firstChildId x = .ok (s.kids x).head? ∧
        (Release.run cap Forest.new ops).lastChildId x = .ok (s.kids x).getLast?) ∧
    ∀ q : Req T, (∀ x ∈ q.ids, (Release.run cap Forest.new ops).isAlive x = true →
        ¬ Release.taint cap Forest.new (fun _ => False) ops x) →
      (q.exec cap um (Release.run cap Forest.new ops)).2 =
        (q.exec cap um ((Release.run cap Forest.new ops).without (Release.taint cap Forest.new (fun _ => False) ops))).2 := by
  have h : Contained cap (Release.run cap (Forest.new : Forest T) ops) _ :=
    Release.contained_run ops (Contained.start new_consistent (Nat.zero_le _))
  obtain ⟨s, hm⟩ := h.sound
  refine ⟨⟨s, hm.valid, fun x => by rw [h.aliveS hm]; exact And.comm, fun x hx => ?_⟩, fun q hq => ?_⟩
  · have hq : Clean (Release.run cap Forest.new ops) (Release.taint cap Forest.new (fun _ => False) ops) x :=
      .inl ((h.aliveS hm x).1 hx).1
    have hd := hm.describes
    exact ⟨(Forest.linkOf_same h.clean hq .parent).1.trans (hd.parent x hx), (Forest.linkOf_same h.clean hq .next).1.trans (hd.next x hx),
      (Forest.linkOf_same h.clean hq .prev).1.trans (hd.prev x hx), (Forest.linkOf_same h.clean hq .firstChild).1.trans (hd.first x hx),
      (Forest.linkOf_same h.clean hq .lastChild).1.trans (hd.last x hx)⟩
  · refine (C68_calls_are_local h.clean q fun x hx => ?_).1
    cases e : (Release.run cap Forest.new ops).isAlive x with
    | true => exact .inl (hq x hx e)
    | false => exact .inr e

/-- Without `remove_hooked_panic_safe`, the tainted nodes are those of a debug build. -/
theorem Release.taint_same (ops : List (Op T)) : ∀ (f : Forest T) (B : Nat → Prop),
    (∀ op ∈ ops, ∀ S hook c x, op ≠ .removeHookedPanicSafe S hook c x) →
    Release.taint cap f B ops = Treena.taint cap f B ops ∧ Release.run cap f ops = Op.run cap f ops := by
  induction ops with
  | nil => intro f B _; exact ⟨rfl, rfl⟩
  | cons op ops ih =>
    intro f B h
    have e : Release.step cap f op = Op.step cap f op := Release.step_same f op (h op (.head _))
    have et : Release.taintStep cap f B op = Treena.taintStep cap f B op := by
      unfold Release.taintStep Treena.taintStep; rw [e]
    obtain ⟨h1, h2⟩ := ih (Op.step cap f op) (Treena.taintStep cap f B op) fun o ho => h o (.tail _ ho)
    constructor
    · rw [Release.taint, Treena.taint, e, et]; exact h1
    · simp only [Release.run, Op.run, List.foldl_cons] at h2 ⊢
      rw [e]; exact h2

/-! ### Non-vacuity -/

theorem beside_release : Release.taint 100 Forest.new (fun _ => False) besideHistory = Treena.taint 100 Forest.new (fun _ => False) besideHistory ∧
    Release.run 100 Forest.new besideHistory = Op.run 100 Forest.new besideHistory :=
  Release.taint_same besideHistory _ _ fun op ho S hook c x e => by
    subst e; simp [besideHistory] at ho

/-- A history with a tree destroyed by an in-place insertion (`2` with the children `3`, `4`) beside a sound tree: in the
release build, too, the sound part is there, with the node `5` made after the harmful call below `1`. -/
example : ∃ s : Shape, s.Valid ∧ s.alive 0 = true ∧ s.alive 1 = true ∧ s.alive 5 = true ∧ (s.kids 1).head? = some 5 := by
  obtain ⟨s, h1, h3, h4⟩ := (C74_damage_is_contained 100 1000 besideHistory).1
  rw [beside_release.1, beside_release.2] at h3
  rw [beside_release.2] at h4
  have ht : ∀ x, x = 0 ∨ x = 1 ∨ x = 5 → ¬ taint 100 Forest.new (fun _ => False) besideHistory x := fun x hx h => by
    have := beside_taint x h; omega
  have a0 := (h3 0).2 ⟨by decide, ht 0 (by simp)⟩
  have a1 := (h3 1).2 ⟨by decide, ht 1 (by simp)⟩
  have a5 := (h3 5).2 ⟨by decide, ht 5 (by simp)⟩
  refine ⟨s, h1, a0, a1, a5, ?_⟩
  have e : (Op.run 100 Forest.new besideHistory).firstChildId 1 = .ok (some 5) := by decide
  rw [(h4 1 a1).2.2.2.1] at e
  exact Except.ok.inj e

/-- `C74_ids` applies: after a removal whose hook panics, and in a destroyed forest, a new ID is new. -/
example : Op.newId 100 (Release.run 100 Forest.new ((besideHistory ++ [.removeHookedPanicSafe Unit (fun s d => if d = 15 then .error s else .ok s) () 0]) ++
    [.removeHookedPanicSafe Unit (fun s _ => .ok s) () 2])) (.createRoot 16) = some 6 := by decide

/-! ### The hypotheses can be met

Each example applies the theorem named in its comment to a concrete forest. -/

section
/-- `C74_data_free`: numbers and strings. -/
example := C74_data_free (cap := 100) (fun n : Nat => toString n)
  (.cons (.createRoot 5) (.cons (.createInsert 7 (.lastChildOf 0)) (.cons (.detach 1) .nil))) Forest.new

/-- `C74_local`: node 6, and the sample forest before and after `detach(2)`. -/
example := C74_local Sample.same_six (.createInsert 42 (.lastChildOf 6)) (by simp [Op.ids, InsertAs.place, Place.anchor, Sample.six])

/-- `C74_same_forest`: a removal. -/
example := C74_same_forest (cap := 100) Sample.built (.remove 2) (by simp)

end

end Treena
