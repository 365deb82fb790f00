import Verif.Proof.Wild
import Verif.Props.Sample
import Verif.Props.SampleRun
/-!
# C81: `NestTreeBuilder` and hostile closures
-/

set_option autoImplicit false

namespace Treena
open WildCall

variable {T : Type} {f g : Forest T} {s s' : Shape}

/-- **C81**: whatever the closures do (add, nest, panic, catch panics and go on, exchange their builder with another one on another forest),
and in whatever state the two builders are: the calls end, perhaps with a panic; both forests are consistent afterwards
and have all their old nodes, with their data, their parents and their old children in the old order. -/
theorem C81_any_closure {b o : Nest T} (hb : Models b.forest s) (ho : Models o.forest s') (cap : Nat) (calls : List (WildCall T)) :
    ∃ b' o' t t', (execL cap calls (b, o) = .ok () (b', o') ∨ ∃ msg, execL cap calls (b, o) = .fail (.panic msg) (b', o')) ∧
      (Sown b.forest s b'.forest t ∧ Sown o.forest s' o'.forest t' ∨ Sown b.forest s o'.forest t ∧ Sown o.forest s' b'.forest t') := by
  have h := execL_ends (f := b.forest) (s := s) (g := o.forest) (s' := s') cap calls (b, o)
    (.inl ⟨s, s', Sown.refl hb, Sown.refl ho⟩)
  cases hr : execL cap calls (b, o) with
  | ok u p =>
    rw [hr] at h
    rcases h with ⟨t, t', h1, h2⟩ | ⟨t, t', h1, h2⟩
    · exact ⟨p.1, p.2, t, t', .inl rfl, .inl ⟨h1, h2⟩⟩
    · exact ⟨p.1, p.2, t, t', .inl rfl, .inr ⟨h1, h2⟩⟩
  | fail e p =>
    rw [hr] at h
    obtain ⟨⟨msg, rfl⟩, h⟩ := h
    rcases h with ⟨t, t', h1, h2⟩ | ⟨t, t', h1, h2⟩
    · exact ⟨p.1, p.2, t, t', .inr ⟨msg, rfl⟩, .inl ⟨h1, h2⟩⟩
    · exact ⟨p.1, p.2, t, t', .inr ⟨msg, rfl⟩, .inr ⟨h1, h2⟩⟩

/-- **C81**: without exchange, exactly what a builder does: `NestTreeBuilder::new(d)` followed by the calls makes the nodes that are in the log
of the calls, each by `create_insert(d, LastChildOf(parent))` in the order of the log; `root()` finally is the log's pen, and
the panic that leaves the calls is the log's.  The pen goes down at `create_tree` and comes back only if the closure
returns. -/
theorem C81_log (hm : Models f s) (cap : Nat) (hcap : s.size < cap) (d : T) (calls : List (WildCall T)) (hs : steadyL calls = true)
    (o : Nest T) :
    ∃ b b', Nest.new cap d f = .ok b b.forest ∧ Forest.createRoot cap d f = .ok b.root b.forest ∧ b.root = s.size ∧
      execL cap calls (b, o) = (match (logL cap s.size (s.size + 1) calls).panic with
        | none => .ok () (b', o)
        | some e => .fail e (b', o)) ∧
      b'.getRoot = (logL cap s.size (s.size + 1) calls).pen ∧
      plant cap (logL cap s.size (s.size + 1) calls).made b.forest = .ok () b'.forest := by
  obtain ⟨f1, h1, hm1, _⟩ := createRoot_models hm hcap d
  have hset : Settled (⟨f1, s.size, none⟩ : Nest T) s.addRoot :=
    ⟨hm1, s.addRoot_alive_self, by
      show none = (s.kids s.size).getLast?
      rw [hm.valid.fresh _ (Nat.le_refl _)]; rfl⟩
  obtain ⟨b', t, _, _, _, k4, _, k6, k7⟩ := execL_obeys (cap := cap) calls (lo := 0) o hs hset (Nat.zero_le _)
  exact ⟨⟨f1, s.size, none⟩, b', by unfold Nest.new; rw [h1], h1, rfl, k7, k4, k6⟩

/-- **C81**: the same from any moment between two calls, when children go to the end of the children of `root()`. -/
theorem C81_log_later {b : Nest T} (hm : Models b.forest s) (ha : s.alive b.root = true)
    (hc : b.current = (s.kids b.root).getLast?) (cap : Nat) (calls : List (WildCall T)) (hs : steadyL calls = true) (o : Nest T) :
    ∃ b' t, execL cap calls (b, o) = (match (logL cap b.root s.size calls).panic with
        | none => .ok () (b', o)
        | some e => .fail e (b', o)) ∧
      b'.getRoot = (logL cap b.root s.size calls).pen ∧
      plant cap (logL cap b.root s.size calls).made b.forest = .ok () b'.forest ∧
      Models b'.forest t ∧ t.alive b'.root = true ∧ b'.current = (t.kids b'.root).getLast? := by
  obtain ⟨b', t, k1, _, _, k4, _, k6, k7⟩ := execL_obeys (cap := cap) calls (lo := 0) o hs ⟨hm, ha, hc⟩ (Nat.zero_le _)
  exact ⟨b', t, k7, k4, k6, k1.models, k1.alive, k1.current⟩

mutual
/-- The calls of the tame closures of C31. -/
def NestCall.wild : NestCall T → WildCall T
  | .addChild d => .addChild d
  | .createTree d cs => .createTree d (NestCall.wildL cs)
  | .boom => .boom
def NestCall.wildL : List (NestCall T) → List (WildCall T)
  | [] => []
  | c :: cs => c.wild :: NestCall.wildL cs
end

mutual
private theorem wild_exec (cap : Nat) : ∀ (c : NestCall T) (b o : Nest T), exec cap c.wild (b, o) = match NestCall.exec cap c b with
    | .ok () b' => .ok () (b', o)
    | .fail e b' => .fail e (b', o)
  | .addChild d, b, o => by
    rw [NestCall.wild, exec, onSelf_run, NestCall.exec]
    cases Nest.addChild cap d b <;> rfl
  | .boom, b, o => by rw [NestCall.wild, exec, NestCall.exec]; rfl
  | .createTree d cs, b, o => by
    rw [NestCall.wild, exec, createTreeOf_run, NestCall.exec]
    unfold Nest.createTree
    simp only [M.run_bind]
    cases Nest.addChild cap d b with
    | fail e b' => rfl
    | ok u b' =>
      simp only [M.read]
      cases hc : b'.current with
      | none => simp only [expect_none]
      | some n =>
        simp only [expect_some, M.run_modify, wild_execL cap cs]
        cases NestCall.execL cap cs ⟨b'.forest, n, none⟩ <;> rfl
private theorem wild_execL (cap : Nat) : ∀ (cs : List (NestCall T)) (b o : Nest T), execL cap (NestCall.wildL cs) (b, o) =
    match NestCall.execL cap cs b with
    | .ok () b' => .ok () (b', o)
    | .fail e b' => .fail e (b', o)
  | [], b, o => by rw [NestCall.wildL, execL, NestCall.execL]; rfl
  | c :: cs, b, o => by
    rw [NestCall.wildL, execL, NestCall.execL]
    simp only [M.run_bind, wild_exec cap c]
    cases NestCall.exec cap c b with
    | fail e b' => rfl
    | ok u b' => exact wild_execL cap cs b' o
end

/-- **C81**: for closures that neither catch nor exchange this is the builder of C31. -/
theorem C81_tame (cap : Nat) (calls : List (NestCall T)) (b o : Nest T) :
    execL cap (NestCall.wildL calls) (b, o) = match NestCall.execL cap calls b with
      | .ok () b' => .ok () (b', o)
      | .fail e b' => .fail e (b', o) := wild_execL cap calls b o

/-! ### What one might not expect -/

/-- Run calls on a fresh builder on `f`, the other builder being a fresh one on `g`; show something of the two forests. -/
def trial {α : Type} (f g : Forest Nat) (calls : List (WildCall Nat)) (see : Nest Nat × Nest Nat → α) : Option (Except Fail α) :=
  match Nest.new 100 0 f, Nest.new 100 0 g with
  | .ok b _, .ok o _ => match execL 100 calls (b, o) with
    | .ok () p => some (.ok (see p))
    | .fail e _ => some (.error e)
  | _, _ => none

/-- `b.create_tree(1, |b| { catch_unwind(|| b.create_tree(2, |_| panic!())); b.add_child(3) }); b.add_child(4)`: the node 3 becomes a child
of 2, not of 1.  (The nodes are numbered as their data; the root is 0.) -/
theorem C81_caught_panic_misplaces :
    (logL 100 0 1 [.createTree 1 [.caught [.createTree 2 [.boom]], .addChild 3], .addChild 4] : Log Nat).made =
      [(0, 1), (1, 2), (2, 3), (0, 4)] ∧
    trial Forest.new Forest.new [.createTree 1 [.caught [.createTree 2 [.boom]], .addChild 3], .addChild 4]
      (fun p => [p.1.forest.parentId 1, p.1.forest.parentId 2, p.1.forest.parentId 3, p.1.forest.parentId 4]) =
        some (.ok [.ok (some 0), .ok (some 1), .ok (some 2), .ok (some 0)]) := by
  constructor <;> decide +kernel

/-- `b.create_tree(1, |b| swap(b, other)); b.add_child(2)`, both builders being fresh and on empty forests: the builder now refers to
the second forest with an ID of the first one, and `add_child` panics with a message that speaks of an internal
inconsistency. -/
theorem C81_exchange_reaches_consistency_panic :
    trial Forest.new Forest.new [.createTree 1 [.swap], .addChild 2] (fun _ => ()) = some (.error (.panic Nest.addMsg)) := by
  decide +kernel

/-- Exchange with the builder of a larger forest: the new node goes next to an old node of that forest that has nothing to do with
the builder (node 2 of the sample forest gets the next sibling 9; the other builder's tree is the root 8), and `root()` is an ID of the
other forest. -/
theorem C81_exchange_reaches_foreign_nodes :
    trial Forest.new Sample.built [.addChild 1, .createTree 2 [.swap], .addChild 3]
      (fun p => [.ok (some p.1.getRoot), .ok (some p.2.getRoot), p.1.forest.nextSiblingId 2, p.1.forest.parentId 8]) =
        some (.ok [.ok (some 0), .ok (some 2), .ok (some 9), .ok none]) ∧ Sample.built.nextSiblingId 2 ≠ .ok (some 9) := by
  constructor <;> decide +kernel

/-- Hypotheses of `C81_any_closure` and `C81_log`: the sample forest twice. -/
example : ∃ b' o' t t', (execL 100 [.createTree 1 [.caught [.swap, .boom], .addChild 7], .swap, .boom] ((⟨Sample.built, 2, some 5⟩ : Nest Nat),
      (⟨Sample.built, 3, none⟩ : Nest Nat)) = .ok () (b', o') ∨
      ∃ msg, execL 100 [.createTree 1 [.caught [.swap, .boom], .addChild 7], .swap, .boom] (⟨Sample.built, 2, some 5⟩, ⟨Sample.built, 3, none⟩) =
        .fail (.panic msg) (b', o')) ∧
      (Sown Sample.built Sample.shape b'.forest t ∧ Sown Sample.built Sample.shape o'.forest t' ∨
        Sown Sample.built Sample.shape o'.forest t ∧ Sown Sample.built Sample.shape b'.forest t') :=
  C81_any_closure (b := ⟨Sample.built, 2, some 5⟩) (o := ⟨Sample.built, 3, none⟩) Sample.models Sample.models 100 _

example : ∃ b b' : Nest Nat, Nest.new 100 0 Sample.built = .ok b b.forest ∧
    plant 100 [(8, 1), (9, 2), (10, 3), (8, 4)] b.forest = .ok () b'.forest ∧ b'.getRoot = 8 := by
  obtain ⟨b, b', h1, _, _, _, h4, h5⟩ := C81_log (f := Sample.built) (s := Sample.shape) Sample.models 100 (by decide) 0
    [.createTree 1 [.caught [.createTree 2 [.boom]], .addChild 3], .addChild 4] rfl ⟨Sample.built, 0, none⟩
  exact ⟨b, b', h1, h5, h4⟩

/-! ### The hypotheses can be met

Each example applies the theorem named in its comment to a concrete forest. -/

section
/-- `C81_log_later`: a builder on node 2 of the sample forest, whose last child is 5. -/
example := C81_log_later (b := ⟨Sample.built, 2, some 5⟩) Sample.models rfl rfl 100
  [.createTree 1 [.caught [.createTree 2 [.boom]], .addChild 3], .addChild 4] rfl ⟨Sample.built, 0, none⟩

end

end Treena
