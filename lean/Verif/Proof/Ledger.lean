import Verif.Spec.Ledger
import Verif.Proof.ReleaseHist
import Mathlib.Data.List.Perm.Basic
/-! Bookkeeping of the data. -/
set_option autoImplicit false

namespace Treena
variable {T : Type}

/-! ### Taking data out -/

theorem held_set_none {l : List (Option T)} {x : Nat} {d : T} (h : l[x]? = some (some d)) :
    (l.filterMap fun o => o).Perm (((l.set x none).filterMap fun o => o) ++ [d]) := by
  induction l generalizing x with
  | nil => simp at h
  | cons a l ih =>
    cases x with
    | zero =>
      simp only [List.getElem?_cons_zero, Option.some.injEq] at h
      subst h
      simp only [List.set_cons_zero, List.filterMap_cons]
      exact (List.perm_append_singleton d _).symm
    | succ x =>
      simp only [List.getElem?_cons_succ] at h
      have := ih h
      simp only [List.set_cons_succ, List.filterMap_cons]
      cases a with
      | none => exact this
      | some a => exact this.cons a

/-- The relation kept by removals with a watched hook. -/
def Took {S : Type} (p q : Forest T × (S × List T)) : Prop :=
  ∃ l, q.2.2 = p.2.2 ++ l ∧ HandedOver p.1 q.1 l ∧ (p.1.held ).Perm (q.1.held ++ l)

theorem handedOver_same {f f' : Forest T} (h : f'.data = f.data) : HandedOver f f' [] :=
  ⟨[], by simp, by simp, rfl, by rw [h], fun y => by simp [Forest.getData, h]⟩

theorem HandedOver.trans {a b c : Forest T} {l m : List T} (h1 : HandedOver a b l) (h2 : HandedOver b c m) :
    HandedOver a c (l ++ m) := by
  obtain ⟨K, hn, hK, rfl, hl, hd⟩ := h1
  obtain ⟨L, hn', hL, rfl, hl', hd'⟩ := h2
  have key : ∀ k ∈ L, k.1 ∉ K.map (·.1) := by
    intro k hk hm
    have := hL k hk
    rw [hd, if_pos hm] at this
    simp at this
  refine ⟨K ++ L, ?_, ?_, by simp, hl'.trans hl, fun y => ?_⟩
  · rw [List.map_append, List.nodup_append]
    refine ⟨hn, hn', ?_⟩
    intro x hx y hy e
    subst e
    obtain ⟨k, hk, rfl⟩ := List.mem_map.1 hy
    exact key k hk hx
  · intro k hk
    rcases List.mem_append.1 hk with h | h
    · exact hK k h
    · have := hL k h
      rwa [hd, if_neg (key k h)] at this
  · rw [hd', hd]
    simp only [List.map_append, List.mem_append]
    by_cases h1 : y ∈ K.map (·.1) <;> by_cases h2 : y ∈ L.map (·.1) <;> simp [h1, h2]

theorem took_ord {S : Type} : PreOrd (Took (T := T) (S := S)) := by
  refine ⟨fun p => ⟨[], by simp, handedOver_same rfl, by simp⟩, ?_⟩
  rintro a b c ⟨l, e1, h1, p1⟩ ⟨m, e2, h2, p2⟩
  refine ⟨l ++ m, by rw [e2, e1, List.append_assoc], h1.trans h2, ?_⟩
  refine p1.trans ((p2.append_right l).trans ?_)
  rw [List.append_assoc]
  exact List.Perm.append_left _ List.perm_append_comm

theorem took_same {S : Type} {p q : Forest T × (S × List T)} (hd : q.1.data = p.1.data) (h2 : q.2.2 = p.2.2) : Took p q :=
  ⟨[], by simp [h2], handedOver_same hd, by simp [Forest.held, hd]⟩

/-- The computation takes the datum of `x` out and returns it, or leaves the data as they are. -/
def Takes (x : Nat) (m : M (Forest T) T) : Prop := ∀ f, match m f with
  | .ok d f' => f.data[x]? = some (some d) ∧ f'.data = f.data.set x none
  | .fail _ f' => f'.data = f.data

theorem takeData_takes (x : Nat) : Takes x (Forest.takeData x : M (Forest T) T) := by
  intro f
  unfold Forest.takeData
  rcases h : f.data[x]? with _ | _ | d <;> simp

theorem Takes.bind {α : Type} {x : Nat} {m : M (Forest T) α} {k : α → M (Forest T) T} (hm : ∀ f, (m f).state.data = f.data)
    (hk : ∀ a, Takes x (k a)) : Takes x (m >>= k) := by
  intro f
  have h := hm f
  simp only [M.run_bind]
  cases hmf : m f with
  | fail e f' => rw [hmf] at h; exact h
  | ok a f' =>
    rw [hmf] at h
    have h2 := hk a f'
    simp only [Res.state] at h
    rw [h] at h2
    exact h2

theorem takes_took {S : Type} {x : Nat} {m : M (Forest T) T} (hm : Takes x m) (hook : Forest.Hook S T) :
    Keeps Took (Forest.onForest m >>= fun d => Forest.callHook (watched hook) d) := by
  rintro ⟨f, s, log⟩
  have h := hm f
  simp only [M.run_bind, Forest.onForest, M.zoom]
  cases hmf : m f with
  | fail e f' =>
    rw [hmf] at h
    exact took_same h rfl
  | ok d f' =>
    rw [hmf] at h
    obtain ⟨hx, hd⟩ := h
    have key : ∀ s' : S, Took (f, s, log) (f', s', log ++ [d]) := by
      intro s'
      refine ⟨[d], rfl, ⟨[(x, d)], by simp, by simp [Forest.getData, hx], rfl, by simp [hd], fun y => ?_⟩, ?_⟩
      · simp only [Forest.getData, hd, List.getElem?_set, List.map_cons, List.map_nil, List.mem_singleton]
        by_cases e : x = y
        · subst e; simp only [if_true]; split <;> rfl
        · rw [if_neg e, if_neg (fun h => e h.symm)]
      · unfold Forest.held
        rw [hd]
        exact held_set_none hx
    simp only [Forest.callHook, watched]
    cases hook s d with
    | ok s' => exact key s'
    | error s' => exact key s'

theorem closeForce_took {S : Type} (hook : Forest.Hook S T) (x : Nat) :
    Keeps Took (Forest.closeForce (watched hook) x) := by
  unfold Forest.closeForce
  exact takes_took (Takes.bind (fun f => onHier_data _ f) fun _ => takeData_takes x) hook

theorem takes_read {α : Type} {x : Nat} {r : Forest T → R α} {k : α → M (Forest T) T} (hk : ∀ a, Takes x (k a)) :
    Takes x (M.read r >>= k) := Takes.bind (fun f => by unfold M.read; cases r f <;> rfl) hk

theorem takes_panic (x : Nat) (msg : String) : Takes x (M.panic msg : M (Forest T) T) := fun _ => rfl

theorem closePanicSafe_took {S : Type} (hook : Forest.Hook S T) (x : Nat) :
    Keeps Took (Forest.closePanicSafe (watched hook) x) := by
  unfold Forest.closePanicSafe
  refine takes_took (x := x) (Takes.bind (fun f => onHier_data _ f) fun nb => ?_) hook
  refine takes_read fun fc => ?_
  split
  · exact takes_panic x _
  refine Takes.bind (fun f => onHier_data _ f) fun _ => ?_
  refine Takes.bind (fun f => onHier_data _ f) fun nb => ?_
  refine takes_read fun fc => ?_
  split
  · exact takes_panic x _
  exact Takes.bind (fun f => onHier_data _ f) fun _ => takeData_takes x

theorem releaseClose_took {S : Type} (hook : Forest.Hook S T) (x : Nat) :
    Keeps Took (Release.Forest.closePanicSafe (watched hook) x) := by
  unfold Release.Forest.closePanicSafe
  refine takes_took (x := x) (Takes.bind (fun f => onHier_data _ f) fun _ => ?_) hook
  refine Takes.bind (fun f => onHier_data _ f) fun nb => ?_
  exact Takes.bind (fun f => onHier_data _ f) fun _ => takeData_takes x

theorem removeLoop_took {S : Type} {close : Nat → M (Forest T × (S × List T)) Unit} (hc : ∀ x, Keeps Took (close x)) :
    ∀ (fuel : Nat) (tr : Safe.St), Keeps Took (Forest.removeLoop close fuel tr)
  | 0, _ => by unfold Forest.removeLoop; exact Keeps.throw took_ord _
  | fuel + 1, tr => by
    unfold Forest.removeLoop
    refine Keeps.bind took_ord (Keeps.read took_ord _) fun p => ?_
    obtain ⟨ev, tr'⟩ := p
    simp only []
    split
    · exact Keeps.pure took_ord _
    · exact removeLoop_took hc fuel tr'
    · exact Keeps.bind took_ord (hc _) fun _ => removeLoop_took hc fuel tr'

theorem removeWith_took {S : Type} {close : Nat → M (Forest T × (S × List T)) Unit} (hc : ∀ x, Keeps Took (close x))
    (x : Nat) : Keeps Took (Forest.removeWith close x) := by
  unfold Forest.removeWith
  refine Keeps.bind took_ord (Keeps.read took_ord _) fun al => ?_
  split
  · exact Keeps.pure took_ord _
  refine Keeps.bind took_ord ?_ fun _ => ?_
  · rintro ⟨f, s⟩
    have := onHier_data (T := T) (Hier.detach x) f
    unfold Forest.onForest M.zoom Forest.detach
    cases h : Forest.onHier (Hier.detach x) f <;> rw [h] at this <;> exact took_same this rfl
  refine Keeps.bind took_ord (Keeps.read took_ord _) fun tr => ?_
  refine Keeps.bind took_ord (Keeps.read took_ord _) fun fuel => ?_
  exact removeLoop_took hc _ _

/-! ### A watched hook does the same -/

/-- Forget the list. -/
def unwatch {S : Type} (p : Forest T × (S × List T)) : Forest T × S := (p.1, p.2.1)

theorem callHook_unwatch {S : Type} (hook : Forest.Hook S T) (d : T) :
    Comm unwatch idf (Forest.callHook (watched hook) d) (Forest.callHook hook d) := by
  rintro ⟨f, s, l⟩
  simp only [Forest.callHook, watched, unwatch]
  cases hook s d <;> rfl

theorem onForest_unwatch {S α : Type} (m : M (Forest T) α) :
    Comm (unwatch (S := S)) idf (Forest.onForest m) (Forest.onForest m) := by
  rintro ⟨f, s, l⟩
  simp only [Forest.onForest, M.zoom, unwatch]
  cases m f <;> rfl

theorem closeForce_unwatch {S : Type} (hook : Forest.Hook S T) (x : Nat) :
    Comm unwatch idf (Forest.closeForce (watched hook) x) (Forest.closeForce hook x) := by
  unfold Forest.closeForce
  exact Comm.bind (onForest_unwatch _) fun d => callHook_unwatch hook d
theorem closePanicSafe_unwatch {S : Type} (hook : Forest.Hook S T) (x : Nat) :
    Comm unwatch idf (Forest.closePanicSafe (watched hook) x) (Forest.closePanicSafe hook x) := by
  unfold Forest.closePanicSafe
  exact Comm.bind (onForest_unwatch _) fun d => callHook_unwatch hook d
theorem releaseClose_unwatch {S : Type} (hook : Forest.Hook S T) (x : Nat) :
    Comm unwatch idf (Release.Forest.closePanicSafe (watched hook) x) (Release.Forest.closePanicSafe hook x) := by
  unfold Release.Forest.closePanicSafe
  exact Comm.bind (onForest_unwatch _) fun d => callHook_unwatch hook d

theorem removeLoop_unwatch {S : Type} {close : Nat → M (Forest T × (S × List T)) Unit} {close' : Nat → M (Forest T × S) Unit}
    (h : ∀ x, Comm unwatch idf (close x) (close' x)) (fuel : Nat) : ∀ (tr : Safe.St),
    Comm unwatch idf (Forest.removeLoop close fuel tr) (Forest.removeLoop close' fuel tr) := by
  induction fuel with
  | zero => intro tr; exact Comm.throw _
  | succ fuel ih =>
    intro tr
    unfold Forest.removeLoop
    refine Comm.bind (G := idf) (Comm.read fun p => (except_map_id _).symm) fun r => ?_
    obtain ⟨ev, tr'⟩ := r
    rcases ev with _ | _ | x
    · exact Comm.pure (G := idf) _
    · exact ih _
    · exact Comm.bind (h x) fun _ => ih _

theorem removeWith_unwatch {S : Type} {close : Nat → M (Forest T × (S × List T)) Unit} {close' : Nat → M (Forest T × S) Unit}
    (h : ∀ x, Comm unwatch idf (close x) (close' x)) (x : Nat) :
    Comm unwatch idf (Forest.removeWith close x) (Forest.removeWith close' x) := by
  unfold Forest.removeWith
  refine Comm.bind (G := idf) (Comm.read fun p => rfl) fun a => ?_
  refine Comm.ite Iff.rfl (Comm.pure (G := idf) _) ?_
  refine Comm.bind (onForest_unwatch _) fun _ => ?_
  refine Comm.bind (G := idf) (Comm.read fun p => (except_map_id _).symm) fun tr => ?_
  refine Comm.bind (G := idf) (Comm.read fun f => rfl) fun fuel => ?_
  exact removeLoop_unwatch h fuel tr

theorem comm_state {σ τ α : Type} {F : σ → τ} {m : M σ α} {m' : M τ α} (h : Comm F idf m m') (s : σ) :
    (m' (F s)).state = F (m s).state := by
  rw [h s]; cases m s <;> rfl

/-! ### All calls -/

theorem held_ext {f f' : Forest T} (h : DataExt f f') :
    f'.held = f.held ++ (f'.data.drop f.data.length).filterMap fun o => o := by
  obtain ⟨l, h⟩ := h
  simp [Forest.held, h]

theorem held_same_len {f f' : Forest T} (h : f'.data.length = f.data.length) :
    (f'.data.drop f.data.length).filterMap (fun o => o) = [] := by
  rw [List.drop_eq_nil_of_le (by omega)]; rfl

theorem setData_held (x : Nat) (v : T) (f : Forest T) :
    (f.held ++ if f.isAlive x then [v] else []).Perm ((Forest.setData x v f).state.held ++ (f.getData x).toList) := by
  unfold Forest.setData Forest.isAlive Forest.getData Forest.held
  rcases h : f.data[x]? with _ | _ | d
  · simp [Res.state]
  · simp [Res.state]
  · simp only [Option.bind_some, Res.state]
    have h1 := held_set_none h
    have h2 : (f.data.set x (some v))[x]? = some (some v) := by
      rw [List.getElem?_set]
      have : x < f.data.length := by
        rcases Nat.lt_or_ge x f.data.length with h' | h'
        · exact h'
        · rw [List.getElem?_eq_none h'] at h; simp at h
      simp [this]
    have h3 := held_set_none h2
    rw [List.set_set] at h3
    simp only [Option.isSome_some, if_true, Option.toList_some]
    refine (h1.append_right [v]).trans (((?_ : List.Perm _ _)).trans (h3.append_right [d]).symm)
    rw [List.append_assoc, List.append_assoc]
    exact List.Perm.append_left _ List.perm_append_comm

section
variable {cap : Nat}

theorem took_step {f : Forest T} {S : Type} {c : S} {m : M (Forest T × (S × List T)) Unit} {m' : M (Forest T × S) Unit}
    (hk : Keeps Took m) (hu : Comm unwatch idf m m') :
    HandedOver f (m' (f, c)).state.1 (m (f, (c, []))).state.2.2 ∧
    f.held.Perm ((m' (f, c)).state.1.held ++ (m (f, (c, []))).state.2.2) := by
  obtain ⟨l, hl, hh, hp⟩ := hk (f, (c, []))
  have e := comm_state hu (f, (c, []))
  simp only [unwatch] at e
  rw [e]
  simp only [List.nil_append] at hl
  rw [hl]
  exact ⟨hh, hp⟩

/-- A removal, its replacement with a watched hook, and what it does. -/
theorem step_removal (f : Forest T) (op : Op T) : (HandedOver f (op.step cap f) (op.left f) ∧
    f.held.Perm ((op.step cap f).held ++ op.left f)) ∨ (∃ x v, op = .setData x v) ∨
    (op.structural = true ∧ op.left f = []) := by
  cases op with
  | setData x v => exact .inr (.inl ⟨x, v, rfl⟩)
  | remove x =>
    left
    have := took_step (f := f) (c := ()) (removeWith_took (closeForce_took (fun s (_ : T) => .ok s)) x)
      (removeWith_unwatch (closeForce_unwatch (fun s (_ : T) => .ok s)) x)
    have e : (Op.step cap f (.remove x)) = (Forest.removeHooked (S := Unit) (fun s _ => .ok s) x (f, ())).state.1 := by
      simp only [Op.step, Forest.remove]
      rcases Forest.removeHooked (S := Unit) (fun s _ => .ok s) x (f, ()) with ⟨_, _, _⟩ | ⟨_, _, _⟩ <;> rfl
    rw [e]
    exact this
  | removeHooked S hook c x =>
    exact .inl (took_step (removeWith_took (closeForce_took hook) x) (removeWith_unwatch (closeForce_unwatch hook) x))
  | removeHookedPanicSafe S hook c x =>
    exact .inl (took_step (removeWith_took (closePanicSafe_took hook) x) (removeWith_unwatch (closePanicSafe_unwatch hook) x))
  | _ => exact .inr (.inr ⟨rfl, rfl⟩)

theorem step_books (f : Forest T) (op : Op T) :
    (f.held ++ op.entered cap f).Perm ((op.step cap f).held ++ op.left f) := by
  rcases step_removal (cap := cap) f op with ⟨hh, hp⟩ | ⟨x, v, rfl⟩ | ⟨hs, hl⟩
  · have hne : op.entered cap f = [] := by
      obtain ⟨K, -, -, -, hlen, -⟩ := hh
      unfold Op.entered
      split
      · simp only [Op.step] at hlen hp
        -- a write is no removal, but then nothing entered
        rename_i x v
        by_cases ha : f.isAlive x = true
        · exfalso
          have h1 := setData_held x v f
          rw [if_pos ha] at h1
          have h2 := h1.symm.trans (hp.append_right [v])
          have := h2.length_eq
          simp [Op.left] at this
        · simp [ha]
      · exact held_same_len hlen
    rw [hne, List.append_nil]
    exact hp
  · exact setData_held x v f
  · rw [hl, List.append_nil, held_ext (step_both f op hs).2]
    have : op.entered cap f = ((op.step cap f).data.drop f.data.length).filterMap fun o => o := by
      cases op <;> first | rfl | simp [Op.structural] at hs
    rw [this]

theorem books (ops : List (Op T)) : ∀ f : Forest T,
    (f.held ++ Op.allEntered cap f ops).Perm ((Op.run cap f ops).held ++ Op.allLeft cap f ops) := by
  induction ops with
  | nil => intro f; exact List.Perm.refl _
  | cons op ops ih =>
    intro f
    simp only [Op.allEntered, Op.allLeft]
    have h1 := (step_books (cap := cap) f op).append_right (Op.allEntered cap (op.step cap f) ops)
    rw [List.append_assoc] at h1
    refine h1.trans ?_
    rw [List.append_assoc]
    refine (List.Perm.append_left _ List.perm_append_comm).trans ?_
    rw [← List.append_assoc]
    refine ((ih (op.step cap f)).append_right _).trans ?_
    rw [List.append_assoc]
    exact List.Perm.append_left _ List.perm_append_comm

/-! ### Release builds -/

theorem release_left_same (f : Forest T) (op : Op T) (h : ∀ S hook c x, op ≠ .removeHookedPanicSafe S hook c x) :
    Release.left f op = op.left f := by
  cases op with
  | removeHookedPanicSafe S hook c x => exact absurd rfl (h S hook c x)
  | remove x => simp only [Release.left, Op.left, Release.removeHooked_eq]
  | removeHooked S hook c x => simp only [Release.left, Op.left, Release.removeHooked_eq]
  | _ => rfl

theorem release_entered_same (f : Forest T) (op : Op T) (h : ∀ S hook c x, op ≠ .removeHookedPanicSafe S hook c x) :
    Release.entered cap f op = op.entered cap f := by
  have := Release.step_same (cap := cap) f op h
  cases op <;> simp only [Release.entered, Op.entered, this]

theorem release_panicSafe {S : Type} (hook : Forest.Hook S T) (c : S) (x : Nat) (f : Forest T) :
    HandedOver f (Release.step cap f (.removeHookedPanicSafe S hook c x)) (Release.left f (.removeHookedPanicSafe S hook c x)) ∧
    f.held.Perm ((Release.step cap f (.removeHookedPanicSafe S hook c x)).held ++
      Release.left f (.removeHookedPanicSafe S hook c x)) := by
  simp only [Release.step, Release.left, Release.removePanicSafe_eq]
  exact took_step (removeWith_took (releaseClose_took hook) x) (removeWith_unwatch (releaseClose_unwatch hook) x)

theorem release_step_books (f : Forest T) (op : Op T) :
    (f.held ++ Release.entered cap f op).Perm ((Release.step cap f op).held ++ Release.left f op) := by
  by_cases h : ∃ S hook c x, op = .removeHookedPanicSafe S hook c x
  · obtain ⟨S, hook, c, x, rfl⟩ := h
    obtain ⟨⟨K, -, -, -, hlen, -⟩, hp⟩ := release_panicSafe (cap := cap) hook c x f
    have : Release.entered cap f (.removeHookedPanicSafe S hook c x) = [] := held_same_len hlen
    rw [this, List.append_nil]
    exact hp
  · have h' : ∀ S hook c x, op ≠ .removeHookedPanicSafe S hook c x := fun S hook c x e => h ⟨S, hook, c, x, e⟩
    rw [release_left_same f op h', release_entered_same f op h', Release.step_same f op h']
    exact step_books f op

theorem release_books (ops : List (Op T)) : ∀ f : Forest T,
    (f.held ++ Release.allEntered cap f ops).Perm ((Release.run cap f ops).held ++ Release.allLeft cap f ops) := by
  induction ops with
  | nil => intro f; exact List.Perm.refl _
  | cons op ops ih =>
    intro f
    simp only [Release.allEntered, Release.allLeft]
    have h1 := (release_step_books (cap := cap) f op).append_right (Release.allEntered cap (Release.step cap f op) ops)
    rw [List.append_assoc] at h1
    refine h1.trans ?_
    rw [List.append_assoc]
    refine (List.Perm.append_left _ List.perm_append_comm).trans ?_
    rw [← List.append_assoc]
    refine ((ih (Release.step cap f op)).append_right _).trans ?_
    rw [List.append_assoc]
    exact List.Perm.append_left _ List.perm_append_comm

/-! ### What enters -/

/-- The computation adds the data `l`, or if it fails a beginning of `l`. -/
def Adds {σ α : Type} (dat : σ → List (Option T)) (l : List T) (m : M σ α) : Prop := ∀ s, match m s with
  | .ok _ s' => dat s' = dat s ++ l.map some
  | .fail _ s' => ∃ l', l' <+: l ∧ dat s' = dat s ++ l'.map some

theorem Adds.bind {σ α β : Type} {dat : σ → List (Option T)} {l l' : List T} {m : M σ α} {k : α → M σ β}
    (hm : Adds dat l m) (hk : ∀ a, Adds dat l' (k a)) : Adds dat (l ++ l') (m >>= k) := by
  intro s
  have h := hm s
  simp only [M.run_bind]
  cases hms : m s with
  | fail e s' =>
    rw [hms] at h
    obtain ⟨l1, h1, h2⟩ := h
    exact ⟨l1, h1.trans (List.prefix_append l l'), h2⟩
  | ok a s' =>
    rw [hms] at h
    have h2 := hk a s'
    simp only at h
    show match k a s' with
      | .ok _ s' => dat s' = dat s ++ (l ++ l').map some
      | .fail _ s' => ∃ l'', l'' <+: l ++ l' ∧ dat s' = dat s ++ l''.map some
    cases hk' : k a s' with
    | ok b s'' => rw [hk'] at h2; simp only at h2 ⊢; rw [h2, h]; simp
    | fail e s'' =>
      rw [hk'] at h2
      obtain ⟨l1, h1, h2⟩ := h2
      refine ⟨l ++ l1, (List.prefix_append_right_inj l).2 h1, ?_⟩
      rw [h2, h]; simp

theorem Adds.of_same {σ α : Type} {dat : σ → List (Option T)} {m : M σ α} (h : ∀ s, dat (m s).state = dat s) : Adds dat [] m := by
  intro s
  have := h s
  cases hms : m s with
  | ok a s' => rw [hms] at this; simpa [Res.state] using this
  | fail e s' => rw [hms] at this; exact ⟨[], List.prefix_rfl, by simpa [Res.state] using this⟩

theorem Adds.read {σ α : Type} {dat : σ → List (Option T)} (r : σ → R α) : Adds dat [] (M.read r) :=
  Adds.of_same fun s => by unfold M.read; cases r s <;> rfl
theorem Adds.pure {σ α : Type} {dat : σ → List (Option T)} (a : α) : Adds dat [] (Pure.pure a : M σ α) :=
  Adds.of_same fun _ => rfl
theorem Adds.panic {σ α : Type} {dat : σ → List (Option T)} (l : List T) (e : String) : Adds dat l (M.panic e : M σ α) :=
  fun s => ⟨[], List.nil_prefix, by simp⟩
theorem Adds.modify {σ : Type} {dat : σ → List (Option T)} {u : σ → σ} (h : ∀ s, dat (u s) = dat s) :
    Adds dat [] (M.modify u) := Adds.of_same fun s => h s

theorem Adds.zoom {σ τ α : Type} {dat : σ → List (Option T)} {dat' : τ → List (Option T)} {get : τ → σ} {set : σ → τ → τ}
    {l : List T} {m : M σ α} (hm : Adds dat l m) (h1 : ∀ t, dat' t = dat (get t)) (h2 : ∀ s t, dat' (set s t) = dat s) :
    Adds dat' l (M.zoom get set m) := by
  intro t
  have h := hm (get t)
  simp only [M.zoom]
  cases hms : m (get t) with
  | ok a s' => rw [hms] at h; simp only at h ⊢; rw [h2, h1, h]
  | fail e s' => rw [hms] at h; simp only at h ⊢; rw [h2, h1]; exact h

theorem adds_onHier {α : Type} (m : M Hier α) : Adds (fun f : Forest T => f.data) [] (Forest.onHier m) :=
  Adds.of_same fun f => onHier_data m f

theorem adds_push (d : T) : Adds (fun f : Forest T => f.data) [d] (Forest.pushData d) := fun _ => by simp [Forest.pushData]

theorem adds_createRoot (d : T) : Adds (fun f : Forest T => f.data) [d] (Forest.createRoot cap d) := by
  unfold Forest.createRoot
  refine Adds.bind (l := []) (adds_onHier _) fun x => ?_
  refine Adds.bind (l := []) (Adds.read _) fun n => ?_
  split
  · exact Adds.panic _ _
  · exact Adds.bind (l := [d]) (l' := []) (adds_push d) fun _ => Adds.pure _

theorem adds_momo (d : T) (dest : InsertAs) : Adds (fun f : Forest T => f.data) [d] (Forest.createInsertMomo cap d dest) := by
  unfold Forest.createInsertMomo
  refine Adds.bind (l := []) (Adds.read _) fun v => ?_
  split
  · exact Adds.panic _ _
  · refine Adds.bind (l := []) (adds_onHier _) fun x => ?_
    refine Adds.bind (l := [d]) (l' := []) (adds_push d) fun _ => ?_
    refine Adds.bind (l := []) (adds_onHier _) fun r => ?_
    split
    · exact Adds.panic _ _
    · exact Adds.pure _

/-- data of a builder's forest -/
abbrev ndat (b : Nest T) : List (Option T) := b.forest.data
/-- data of a builder's forest -/
abbrev cdat (b : Chain T) : List (Option T) := b.forest.data

theorem adds_addChild (d : T) : Adds ndat [d] (Nest.addChild cap d) := by
  unfold Nest.addChild
  refine Adds.bind (l := [d]) (l' := []) (Adds.zoom (adds_createRoot d) (fun _ => rfl) fun _ _ => rfl) fun x => ?_
  refine Adds.bind (l := []) ?_ fun _ => Adds.modify fun _ => rfl
  have key : ∀ dest, Adds ndat []
      (do let r ← Nest.onForest (Forest.insert x dest); Nest.expectOk r Nest.addMsg : M (Nest T) Unit) := by
    intro dest
    refine Adds.bind (l := []) (Adds.zoom (adds_onHier _) (fun _ => rfl) fun _ _ => rfl) fun r => ?_
    unfold Nest.expectOk
    split
    · exact Adds.pure _
    · exact Adds.panic _ _
  intro b
  unfold Nest.place
  cases b.current with
  | none => exact key _ b
  | some c => exact key _ b

theorem adds_createTree (d : T) {l : List T} {m : M (Nest T) Unit} (hm : Adds ndat l m) :
    Adds ndat (d :: l) (Nest.createTree cap d m) := by
  unfold Nest.createTree
  refine Adds.bind (l := [d]) (adds_addChild d) fun _ => ?_
  refine Adds.bind (l := []) (Adds.read _) fun n => ?_
  refine Adds.bind (l := []) (Adds.modify fun _ => rfl) fun _ => ?_
  refine Adds.bind (l := []) (Adds.read _) fun o => ?_
  refine Adds.bind (l := []) (Adds.modify fun _ => rfl) fun _ => ?_
  rw [← List.append_nil l]
  refine Adds.bind hm fun _ => ?_
  exact Adds.bind (l := []) (Adds.modify fun _ => rfl) fun _ => Adds.modify fun _ => rfl

mutual
theorem adds_nest : ∀ c : NestCall T, Adds ndat c.offers (NestCall.exec cap c)
  | .addChild d => by unfold NestCall.exec NestCall.offers; exact adds_addChild d
  | .createTree d cs => by unfold NestCall.exec NestCall.offers; exact adds_createTree d (adds_nestL cs)
  | .boom => by unfold NestCall.exec NestCall.offers; exact Adds.panic _ _
theorem adds_nestL : ∀ cs : List (NestCall T), Adds ndat (NestCall.offersL cs) (NestCall.execL cap cs)
  | [] => by unfold NestCall.execL NestCall.offersL; exact Adds.pure _
  | c :: cs => by
    unfold NestCall.execL NestCall.offersL
    exact Adds.bind (adds_nest c) fun _ => adds_nestL cs
end

theorem adds_nestBuild (d : T) (cs : List (NestCall T)) :
    Adds (fun f : Forest T => f.data) (d :: NestCall.offersL cs) (nestBuild cap d cs) := by
  intro f
  have h1 := adds_createRoot (cap := cap) d f
  unfold nestBuild Nest.new
  cases h : Forest.createRoot cap d f with
  | fail e f' =>
    rw [h] at h1
    obtain ⟨l, hl, e⟩ := h1
    exact ⟨l, hl.trans ((List.prefix_cons_inj d).2 List.nil_prefix), e⟩
  | ok r f' =>
    rw [h] at h1
    simp only [] at h1 ⊢
    have h2 := adds_nestL (cap := cap) cs { forest := f', root := r, current := none }
    cases h3 : NestCall.execL cap cs { forest := f', root := r, current := none } with
    | ok u b => rw [h3] at h2; simp only [ndat] at h2 ⊢; rw [h2, h1]; simp
    | fail e b =>
      rw [h3] at h2
      obtain ⟨l, hl, e⟩ := h2
      exact ⟨d :: l, (List.prefix_cons_inj d).2 hl, by simp only [ndat] at e ⊢; rw [e, h1]; simp⟩

theorem adds_chain (c : ChainCall T) : Adds cdat c.offers (ChainCall.exec cap c) := by
  have key : ∀ d dest, Adds cdat [d] (do
      let new ← Chain.onForest (Forest.createInsert cap d dest)
      M.modify fun b => { b with current := new } : M (Chain T) Unit) := by
    intro d dest
    exact Adds.bind (l := [d]) (l' := []) (Adds.zoom (adds_momo d dest) (fun _ => rfl) fun _ _ => rfl)
      fun _ => Adds.modify fun _ => rfl
  cases c with
  | child d => exact fun b => key d _ b
  | sibling d => exact fun b => key d _ b
  | parent =>
    unfold ChainCall.exec Chain.parent
    refine Adds.bind (l := []) (Adds.read _) fun p => Adds.bind (l := []) (Adds.read _) fun _ => ?_
    exact Adds.modify fun _ => rfl
  | tryParent =>
    unfold ChainCall.exec Chain.tryParent
    refine Adds.bind (l := []) ?_ fun _ => Adds.pure _
    refine Adds.bind (l := []) (Adds.read _) fun p => ?_
    split
    · exact Adds.pure _
    · exact Adds.bind (l := []) (Adds.modify fun _ => rfl) fun _ => Adds.pure _

theorem adds_chainL : ∀ cs : List (ChainCall T), Adds cdat (cs.flatMap ChainCall.offers) (ChainCall.execL cap cs)
  | [] => by unfold ChainCall.execL; exact Adds.pure _
  | c :: cs => by
    unfold ChainCall.execL
    rw [List.flatMap_cons]
    exact Adds.bind (adds_chain c) fun _ => adds_chainL cs

theorem adds_chainBuild (d : T) (cs : List (ChainCall T)) :
    Adds (fun f : Forest T => f.data) (d :: cs.flatMap ChainCall.offers) (chainBuild cap d cs) := by
  intro f
  have h1 := adds_createRoot (cap := cap) d f
  unfold chainBuild Chain.new
  cases h : Forest.createRoot cap d f with
  | fail e f' =>
    rw [h] at h1
    obtain ⟨l, hl, e⟩ := h1
    exact ⟨l, hl.trans ((List.prefix_cons_inj d).2 List.nil_prefix), e⟩
  | ok r f' =>
    rw [h] at h1
    simp only [] at h1 ⊢
    have h2 := adds_chainL (cap := cap) cs { forest := f', root := r, current := r }
    cases h3 : ChainCall.execL cap cs { forest := f', root := r, current := r } with
    | ok u b => rw [h3] at h2; simp only [cdat] at h2 ⊢; rw [h2, h1]; simp
    | fail e b =>
      rw [h3] at h2
      obtain ⟨l, hl, e⟩ := h2
      exact ⟨d :: l, (List.prefix_cons_inj d).2 hl, by simp only [cdat] at e ⊢; rw [e, h1]; simp⟩

theorem drop_adds {f f' : Forest T} {l : List T} (h : f'.data = f.data ++ l.map some) :
    (f'.data.drop f.data.length).filterMap (fun o => o) = l := by
  rw [h]; simp [List.filterMap_map]

/-- `entered` of a call that adds data. -/
theorem adds_entered {α : Type} {f : Forest T} {l : List T} {m : M (Forest T) α} (h : Adds (fun f : Forest T => f.data) l m) :
    ((m f).state.data.drop f.data.length).filterMap (fun o => o) <+: l ∧
    ((Op.valueOf (m f)).isSome → ((m f).state.data.drop f.data.length).filterMap (fun o => o) = l) := by
  have h := h f
  cases hm : m f with
  | ok a f' =>
    rw [hm] at h
    simp only [Res.state]
    rw [drop_adds h]
    exact ⟨List.prefix_rfl, fun _ => rfl⟩
  | fail e f' =>
    rw [hm] at h
    obtain ⟨l', hl, e⟩ := h
    simp only [Res.state, drop_adds e]
    exact ⟨hl, by simp [Op.valueOf]⟩

/-! ### Copies -/

/-- All data satisfy `P`. -/
def AllData (P : T → Prop) (l : List (Option T)) : Prop := ∀ d, some d ∈ l → P d

/-- If all data satisfy `P` before, then also after, and the value satisfies `V`. -/
def PKeeps {σ α : Type} (dat : σ → List (Option T)) (P : T → Prop) (V : α → Prop) (m : M σ α) : Prop :=
  ∀ s, AllData P (dat s) → AllData P (dat (m s).state) ∧ ∀ a s', m s = .ok a s' → V a

theorem PKeeps.bind {σ α β : Type} {dat : σ → List (Option T)} {P : T → Prop} {V : α → Prop} {W : β → Prop} {m : M σ α}
    {k : α → M σ β} (hm : PKeeps dat P V m) (hk : ∀ a, V a → PKeeps dat P W (k a)) : PKeeps dat P W (m >>= k) := by
  intro s hs
  obtain ⟨h1, h2⟩ := hm s hs
  simp only [M.run_bind]
  cases hms : m s with
  | fail e s' => rw [hms] at h1; exact ⟨h1, nofun⟩
  | ok a s' => rw [hms] at h1; exact hk a (h2 a s' hms) s' h1

theorem PKeeps.same {σ α : Type} {dat : σ → List (Option T)} {P : T → Prop} {m : M σ α} (h : ∀ s, dat (m s).state = dat s) :
    PKeeps dat P (fun _ => True) m := fun s hs => ⟨by rw [h s]; exact hs, fun _ _ _ => trivial⟩

theorem PKeeps.read {σ α : Type} {dat : σ → List (Option T)} {P : T → Prop} {V : α → Prop} {r : σ → R α}
    (h : ∀ s, AllData P (dat s) → ∀ a, r s = .ok a → V a) : PKeeps dat P V (M.read r) := by
  intro s hs
  unfold M.read
  cases hr : r s with
  | error e => exact ⟨hs, nofun⟩
  | ok a => exact ⟨hs, fun b s' e => by cases e; exact h s hs a hr⟩

theorem PKeeps.readAny {σ α : Type} {dat : σ → List (Option T)} {P : T → Prop} (r : σ → R α) :
    PKeeps dat P (fun _ => True) (M.read r) := PKeeps.read fun _ _ _ _ => trivial

theorem PKeeps.of_adds {σ α : Type} {dat : σ → List (Option T)} {P : T → Prop} {l : List T} {m : M σ α} (h : Adds dat l m)
    (hl : ∀ d ∈ l, P d) : PKeeps dat P (fun _ => True) m := by
  intro s hs
  refine ⟨?_, fun _ _ _ => trivial⟩
  have h := h s
  cases hm : m s with
  | ok a s' =>
    rw [hm] at h
    intro d hd
    simp only [Res.state] at hd
    rw [h, List.mem_append] at hd
    rcases hd with hd | hd
    · exact hs d hd
    · simp at hd; exact hl d hd
  | fail e s' =>
    rw [hm] at h
    obtain ⟨l', hl', e⟩ := h
    intro d hd
    simp only [Res.state] at hd
    rw [e, List.mem_append] at hd
    rcases hd with hd | hd
    · exact hs d hd
    · simp at hd; exact hl d (hl'.subset hd)

theorem PKeeps.of_adds_drop {σ α : Type} {dat : σ → List (Option T)} {P : T → Prop} {l : List T} {m : M σ α} (n : Nat)
    (h : Adds dat l m) (hl : ∀ d ∈ l, P d) : PKeeps (fun s => (dat s).drop n) P (fun _ => True) m := by
  intro s hs
  refine ⟨?_, fun _ _ _ => trivial⟩
  have key : ∀ l' : List T, (∀ d ∈ l', P d) → AllData P ((dat s ++ l'.map some).drop n) := by
    intro l' hl' d hd
    rw [List.drop_append, List.mem_append] at hd
    rcases hd with hd | hd
    · exact hs d hd
    · have := List.mem_of_mem_drop hd
      simp at this
      exact hl' d this
  have h := h s
  cases hm : m s with
  | ok a s' =>
    rw [hm] at h
    simp only [Res.state]
    rw [h]
    exact key l hl
  | fail e s' =>
    rw [hm] at h
    obtain ⟨l', hl', e⟩ := h
    simp only [Res.state]
    rw [e]
    exact key l' fun d hd => hl d (hl'.subset hd)

/-- the data from ID `n` on, of the forest beside the captured state -/
abbrev pdat {S : Type} (n : Nat) (p : Forest T × S) : List (Option T) := p.1.data.drop n

theorem PKeeps.onForest {S α : Type} {P : T → Prop} {V : α → Prop} {m : M (Forest T) α}
    {n : Nat} (h : PKeeps (fun f : Forest T => f.data.drop n) P V m) : PKeeps (pdat (S := S) n) P V (Forest.onForest m) := by
  rintro ⟨f, s⟩ hs
  obtain ⟨h1, h2⟩ := h f hs
  simp only [Forest.onForest, M.zoom]
  cases hm : m f with
  | ok a f' => rw [hm] at h1; exact ⟨h1, fun b s' e => by cases e; exact h2 a f' hm⟩
  | fail e f' => rw [hm] at h1; exact ⟨h1, nofun⟩

theorem PKeeps.pure {σ α : Type} {dat : σ → List (Option T)} {P : T → Prop} (a : α) :
    PKeeps dat P (fun _ => True) (Pure.pure a : M σ α) := PKeeps.same fun _ => rfl
theorem PKeeps.panic {σ α : Type} {dat : σ → List (Option T)} {P : T → Prop} (e : String) :
    PKeeps dat P (fun _ => True) (M.panic e : M σ α) := PKeeps.same fun _ => rfl

theorem expect_ok {α : Type} {o : Option α} {msg : String} {a : α} (h : expect o msg = .ok a) : o = some a := by
  cases o with
  | none => simp [expect] at h
  | some b => simp [expect] at h; rw [h]

theorem clonedData_ok {cl : T → Option T} {data : List (Option T)} {x : Nat} {v : T} (h : Forest.clonedData cl data x = .ok v) :
    ∃ d, some d ∈ data ∧ cl d = some v := by
  unfold Forest.clonedData at h
  rcases hx : data[x]? with _ | _ | d
  · rw [hx] at h; simp [expect] at h
  · rw [hx] at h; simp [expect] at h
  · rw [hx] at h
    exact ⟨d, List.mem_of_getElem? hx, expect_ok h⟩

variable {P : T → Prop} {cl : T → Option T} {n : Nat}

theorem cloneNextNode_pkeeps {τ : Type} {src : Forest.CloneSrc T τ}
    (hsrc : ∀ f : Forest T, AllData P (f.data.drop n) → ∀ d v, some d ∈ src.data f → cl d = some v → P v) :
    ∀ (fuel cur : Nat) (tr : τ),
    PKeeps (fun f : Forest T => f.data.drop n) P (fun _ => True) (Forest.cloneNextNode cap cl src fuel cur tr) := by
  intro fuel
  induction fuel with
  | zero => intro cur tr; exact PKeeps.same fun _ => rfl
  | succ fuel ih =>
    intro cur tr
    unfold Forest.cloneNextNode
    refine PKeeps.bind (PKeeps.readAny _) fun r _ => ?_
    obtain ⟨ev, tr'⟩ := r
    rcases ev with _ | x | x
    · exact PKeeps.panic _
    · refine PKeeps.bind (V := P) (PKeeps.read fun f hf v hv => ?_) fun d hd => ?_
      · obtain ⟨d, h1, h2⟩ := clonedData_ok hv
        exact hsrc f hf d v h1 h2
      · exact PKeeps.bind (PKeeps.of_adds_drop n (adds_momo d _) (by simpa using hd)) fun _ _ => PKeeps.pure _
    · refine PKeeps.bind (PKeeps.same fun f => by rw [onHier_data]) fun nb _ => ?_
      refine PKeeps.bind (PKeeps.readAny _) fun p _ => ?_
      cases p with
      | none => exact PKeeps.pure _
      | some q => exact ih q tr'

theorem callMap_pkeeps {S : Type} (hook : Forest.MapHook S) (a b : Nat) :
    PKeeps (pdat (T := T) n) P (fun _ => True) (Forest.callMap hook a b) := by
  refine PKeeps.same ?_
  rintro ⟨f, s⟩
  simp only [Forest.callMap]
  cases hook s a b <;> rfl

theorem cloneLoop_pkeeps {S τ : Type} {src : Forest.CloneSrc T τ} (hook : Forest.MapHook S)
    (hsrc : ∀ f : Forest T, AllData P (f.data.drop n) → ∀ d v, some d ∈ src.data f → cl d = some v → P v) (inner : Nat) :
    ∀ (fuel cur : Nat) (tr : τ), PKeeps (pdat n) P (fun _ => True) (Forest.cloneLoop cap cl src hook inner fuel cur tr) := by
  intro fuel
  induction fuel with
  | zero => intro cur tr; exact PKeeps.same fun _ => rfl
  | succ fuel ih =>
    intro cur tr
    unfold Forest.cloneLoop
    refine PKeeps.bind (PKeeps.onForest (cloneNextNode_pkeeps hsrc _ _ _)) fun r _ => ?_
    obtain ⟨o, cur', tr'⟩ := r
    cases o with
    | none => exact PKeeps.pure _
    | some x => exact PKeeps.bind (callMap_pkeeps hook _ _) fun _ _ => ih _ _

theorem getData_mem {f : Forest T} {x : Nat} {d : T} (h : f.getData x = some d) : some d ∈ f.data := by
  unfold Forest.getData at h
  rcases hx : f.data[x]? with _ | _ | d'
  · rw [hx] at h; simp at h
  · rw [hx] at h; simp at h
  · rw [hx] at h
    have : d' = d := by simpa using h
    subst this
    exact List.mem_of_getElem? hx

theorem cloneLocal_pkeeps {S : Type} (hook : Forest.MapHook S) (x : Nat) (hcl : ∀ d v, P d → cl d = some v → P v) :
    PKeeps (pdat 0) P (fun _ => True) (Forest.cloneLocalTreeWithIdMapping cap cl hook x) := by
  unfold Forest.cloneLocalTreeWithIdMapping
  refine PKeeps.bind (V := P) (PKeeps.read fun p hp d hd => hp d (by simpa using getData_mem (expect_ok hd))) fun d hd => ?_
  refine PKeeps.bind (V := P) (PKeeps.read fun p hp v hv => hcl d v hd (expect_ok hv)) fun v hv => ?_
  refine PKeeps.bind (PKeeps.onForest (PKeeps.of_adds_drop 0 (adds_createRoot v) (by simpa using hv))) fun r _ => ?_
  refine PKeeps.bind (callMap_pkeeps hook _ _) fun _ _ => ?_
  refine PKeeps.bind (PKeeps.readAny _) fun tr _ => ?_
  refine PKeeps.bind (PKeeps.readAny _) fun q _ => ?_
  obtain ⟨_, tr⟩ := q
  refine PKeeps.bind (cloneLoop_pkeeps hook (fun f hf d v hd hv => hcl d v (hf d (show some d ∈ f.data.drop 0 by rw [List.drop_zero]; exact hd)) hv) _ _ _ _) fun q _ => ?_
  obtain ⟨cur, _⟩ := q
  simp only []
  split
  · exact PKeeps.panic _
  · exact PKeeps.pure _

theorem cloneForeign_pkeeps {S : Type} (hook : Forest.MapHook S) (fsrc : Forest T) (x : Nat)
    (hsrc : ∀ d v, some d ∈ fsrc.data → cl d = some v → P v) :
    PKeeps (pdat n) P (fun _ => True) (Forest.cloneForeignTreeWithIdMapping cap cl hook fsrc x) := by
  unfold Forest.cloneForeignTreeWithIdMapping
  refine PKeeps.bind (V := fun d => some d ∈ fsrc.data) (PKeeps.read fun p hp d hd => getData_mem (expect_ok hd)) fun d hd => ?_
  refine PKeeps.bind (V := P) (PKeeps.read fun p hp v hv => hsrc d v hd (expect_ok hv)) fun v hv => ?_
  refine PKeeps.bind (PKeeps.onForest (PKeeps.of_adds_drop n (adds_createRoot v) (by simpa using hv))) fun r _ => ?_
  refine PKeeps.bind (callMap_pkeeps hook _ _) fun _ _ => ?_
  refine PKeeps.bind (PKeeps.readAny _) fun tr _ => ?_
  refine PKeeps.bind (PKeeps.readAny _) fun q _ => ?_
  obtain ⟨_, tr⟩ := q
  refine PKeeps.bind (cloneLoop_pkeeps hook (fun f _ d v hd hv => hsrc d v hd hv) _ _ _ _) fun q _ => ?_
  obtain ⟨cur, tr⟩ := q
  simp only []
  split
  · exact PKeeps.panic _
  · refine PKeeps.bind (PKeeps.readAny _) fun q _ => ?_
    obtain ⟨last, _⟩ := q
    simp only []
    split
    · exact PKeeps.panic _
    · exact PKeeps.pure _

end
end Treena
