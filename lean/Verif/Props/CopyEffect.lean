import Verif.Proof.CopyEffect
import Verif.Props.CopyAny
import Verif.Props.CloneEffect
/-!
# C90: a copy is sound whatever the original is and whatever `T::clone` does
-/
set_option autoImplicit false

namespace Treena
variable {S T : Type} {cap : Nat}

/-- **C90**, `clone_local_tree_with_id_mapping` after any history, `T::clone` and the callback doing anything to the rest of the program. -/
theorem C90_effects_local {f : Forest T} (h : Reachable cap f) (cl : Forest.CloneFn S T) (hook : Forest.MapHook S) (σ : S) (x : Nat) :
    CopiesWith cap false cl hook f x f σ (Forest.cloneLocalTreeWithIdMappingE cap cl hook x (f, σ)) :=
  EffectResult.with (effect_local h.bounded (Reachable.coherent h) (gone_same (Reachable.coherent h)) (gone_models (Reachable.coherent h)) cl hook σ x)

/-- **C90**, `clone_foreign_tree_with_id_mapping`, likewise; both forests have had any histories. -/
theorem C90_effects_foreign {cap' : Nat} {f fsrc : Forest T} (h : Reachable cap f) (h' : Reachable cap' fsrc) (cl : Forest.CloneFn S T) (hook : Forest.MapHook S)
    (σ : S) (x : Nat) : CopiesWith cap true cl hook fsrc x f σ (Forest.cloneForeignTreeWithIdMappingE cap cl hook fsrc x (f, σ)) :=
  EffectResult.with (effect_foreign (Reachable.coherent h') (gone_same (Reachable.coherent h)) (gone_models (Reachable.coherent h)) cl hook σ x)

theorem replay_panics (cl : Forest.CloneFn S T) (hook : Forest.MapHook S) : ∀ (l : List (Nat × T)) (n : Nat) (σ : S) (e : Fail),
    (replay cap cl hook n σ l).2.2 = some e → ∃ msg, e = .panic msg := by
  intro l
  induction l with
  | nil => intro n σ e h; cases h
  | cons q l ih =>
    obtain ⟨y, d⟩ := q
    intro n σ e h
    simp only [replay] at h
    cases h1 : cl σ d with
    | error σ' => rw [h1] at h; cases h; exact ⟨_, rfl⟩
    | ok r =>
      obtain ⟨c, σ1⟩ := r
      rw [h1] at h
      dsimp only at h
      split at h
      · cases h; exact ⟨_, rfl⟩
      · cases h2 : hook σ1 y n with
        | error σ' => rw [h2] at h; cases h; exact ⟨_, rfl⟩
        | ok σ2 => rw [h2] at h; exact ih _ _ _ h

theorem CopiesWith.ends {b : Bool} {cl : Forest.CloneFn S T} {hook : Forest.MapHook S} {src f : Forest T} {x : Nat} {σ : S} {r : Res (Forest T × S) Nat}
    (h : CopiesWith cap b cl hook src x f σ r) : ∀ p, r ≠ .fail .diverge p := by
  rintro p rfl
  rcases h with ⟨_, _, h⟩ | ⟨f', E, st, _, _, _, _, h⟩
  · cases h
  · generalize hR : (replay cap cl hook f.issued σ (withData src.getData (openedBy E))).2 = R at h
    obtain ⟨σ', o⟩ := R
    cases o with
    | some e =>
      cases h
      obtain ⟨_, h⟩ := replay_panics cl hook _ _ _ _ (congrArg Prod.snd hR)
      cases h
    | none =>
      rcases h with ⟨h, _⟩ | ⟨⟨_, h⟩, _⟩ <;> cases h

/-- **C90**: these calls return or panic, whatever the trees copied. -/
theorem C90_effects_end {cap' : Nat} {f fsrc : Forest T} (h : Reachable cap f) (h' : Reachable cap' fsrc) (cl : Forest.CloneFn S T) (hook : Forest.MapHook S)
    (σ : S) (x : Nat) (p : Forest T × S) : Forest.cloneLocalTreeWithIdMappingE cap cl hook x (f, σ) ≠ .fail .diverge p ∧
      Forest.cloneForeignTreeWithIdMappingE cap cl hook fsrc x (f, σ) ≠ .fail .diverge p :=
  ⟨(C90_effects_local h cl hook σ x).ends p, (C90_effects_foreign h h' cl hook σ x).ends p⟩

/-- What is there before a copy is there after it: all links and data of the nodes there have been. -/
theorem C90_effects_frame {b : Bool} {cl : Forest.CloneFn S T} {hook : Forest.MapHook S} {src f : Forest T} {x : Nat} {σ : S} {r : Res (Forest T × S) Nat}
    (h : CopiesWith cap b cl hook src x f σ r) : ∀ y, y < f.issued → r.state.1.hier.neighbors y = f.hier.neighbors y ∧ r.state.1.getData y = f.getData y := by
  intro y hy
  rcases h with ⟨_, _, rfl⟩ | ⟨f', E, st, _, _, _, hmade, h⟩
  · exact ⟨rfl, rfl⟩
  · have key : r.state.1 = f' := by
      generalize (replay cap cl hook f.issued σ (withData src.getData (openedBy E))).2 = R at h
      obtain ⟨σ', o⟩ := R
      cases o with
      | some e => cases h; rfl
      | none => rcases h with ⟨rfl, _⟩ | ⟨⟨_, rfl⟩, _⟩ <;> rfl
    rw [key]
    rcases hmade with ⟨_, rfl⟩ | ⟨E0, s, _, hn⟩
    · exact ⟨rfl, rfl⟩
    · exact hn.old y hy

/-- **C90**, `Forest::clone`, of any forest whatsoever: `T::clone` is called once for each datum there is, in the order of the IDs,
until it panics; the clone has the same links and nodes, and the data returned. -/
theorem C90_effects_clone (cl : Forest.CloneFn S T) (σ : S) (f : Forest T) :
    match cloneAll cl σ ((List.range f.issued).filterMap f.getData) with
    | .error σ' => Forest.cloneE cl σ f = .error σ'
    | .ok (cs, σ') => ∃ g, Forest.cloneE cl σ f = .ok (g, σ') ∧ g.hier = f.hier ∧ g.issued = f.issued ∧
        (∀ y, (g.getData y).isSome = (f.getData y).isSome) ∧ (List.range f.issued).filterMap g.getData = cs := by
  have key := cloneDataE_spec cl f.data σ
  have e : (List.range f.issued).filterMap f.getData = f.data.filterMap id := filterMap_data f
  rw [e]
  unfold Forest.cloneE
  cases h : cloneAll cl σ (f.data.filterMap id) with
  | error σ' => rw [h] at key; dsimp only at key ⊢; rw [key]
  | ok r =>
    obtain ⟨cs, σ'⟩ := r
    rw [h] at key
    obtain ⟨l', h1, h2, h3⟩ := key
    have hlen : l'.length = f.data.length := by simpa using congrArg List.length h3
    refine ⟨⟨f.hier, l'⟩, by rw [h1], rfl, hlen, fun y => ?_, ?_⟩
    · have h4 := congrArg (fun l : List Bool => l[y]?) h3
      simp only [List.getElem?_map] at h4
      unfold Forest.getData
      dsimp only
      cases e1 : l'[y]? with
      | none =>
        cases e2 : f.data[y]? with
        | none => rfl
        | some b => rw [e1, e2] at h4; cases h4
      | some a =>
        cases e2 : f.data[y]? with
        | none => rw [e1, e2] at h4; cases h4
        | some b => rw [e1, e2] at h4; simpa using h4
    · rw [← h2]
      have := filterMap_data (⟨f.hier, l'⟩ : Forest T)
      rw [← this]
      show (List.range f.data.length).filterMap _ = _
      rw [← hlen]

theorem clone_stops {cl : Forest.CloneFn S T} {σ σ' : S} {f : Forest T} (h : cloneAll cl σ ((List.range f.issued).filterMap f.getData) = .error σ') :
    Forest.cloneE cl σ f = .error σ' := by
  have := C90_effects_clone cl σ f
  rw [h] at this
  exact this

/-! ### The hypotheses can be met -/

section

/-- A `T::clone` that counts its calls and panics at the third. -/
def thirdPanics : Forest.CloneFn Nat Nat := fun n d => if n < 2 then .ok (d + n, n + 1) else .error n

/-- `C90_effects_local`: after a history that has destroyed the tree of node 2. -/
example := C90_effects_local (cap := 100) (f := Op.run 100 Forest.new besideHistory) ⟨_, rfl⟩ (noteClone id) noteMap [] 2

/-- `C90_effects_foreign`: into a forest with a destroyed tree, from another such forest. -/
example := C90_effects_foreign (cap := 100) (cap' := 100) (f := Op.run 100 Forest.new carousel) (fsrc := Op.run 100 Forest.new besideHistory) ⟨_, rfl⟩ ⟨_, rfl⟩
  thirdPanics (fun n _ _ => .ok n) 0 2

/-- The panic of `T::clone`, the state it leaves and the number of nodes there are then. -/
def panicOfClone : Res (Forest Nat × Nat) Nat → Option (Nat × Nat)
  | .fail e (f, n) => if e = clonePanic then some (n, f.issued) else none
  | .ok _ _ => none

/-- In a forest in which siblings go round, `T::clone` panics at the third node; two nodes have been made. -/
example : panicOfClone (Forest.cloneLocalTreeWithIdMappingE 100 thirdPanics (fun n _ _ => .ok n) 1 (Op.run 100 Forest.new carousel, 0)) =
    some (2, (Op.run 100 (Forest.new : Forest Nat) carousel).issued + 2) := by decide +kernel

/-- `C90_effects_end`, `C90_effects_frame`. -/
example := C90_effects_end (cap := 100) (cap' := 100) (f := Op.run 100 Forest.new carousel) (fsrc := Op.run 100 Forest.new besideHistory) ⟨_, rfl⟩ ⟨_, rfl⟩
  thirdPanics (fun n _ _ => .ok n) 0 1
example := C90_effects_frame (C90_effects_local (cap := 100) (f := Op.run 100 Forest.new carousel) ⟨_, rfl⟩ thirdPanics (fun n _ _ => .ok n) 0 1)

/-- `C90_effects_clone`: in a destroyed forest with four nodes, `T::clone` panics at the third. -/
example : Forest.cloneE thirdPanics 0 (Op.run 100 Forest.new carousel) = .error 2 := clone_stops (by rfl)

end

end Treena
