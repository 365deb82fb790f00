import Verif.Proof.FuelLoops
import Verif.Proof.Keeps
import Verif.Proof.ForestOps
import Mathlib.Tactic.Linarith
/-!
# Enough fuel: the clone functions -/
set_option autoImplicit false

namespace Treena
open Fuel

namespace Fuel
variable {σ ρ : Type}

/-- A loop with any kind of result, `dv` being the result when the fuel is exhausted. -/
structure IsLoopG (L : Nat → σ → ρ) (body : σ → σ ⊕ ρ) (dv : ρ) : Prop where
  zero : ∀ s, L 0 s = dv
  succ : ∀ k s, L (k + 1) s = match body s with
    | .inr a => a
    | .inl s' => L k s'

def stepG (body : σ → σ ⊕ ρ) (s : σ) : Option σ :=
  match body s with
  | .inl s' => some s'
  | .inr _ => none

theorem IsLoopG.goes {L : Nat → σ → ρ} {body : σ → σ ⊕ ρ} {dv : ρ} (hL : IsLoopG L body dv) : ∀ (k : Nat) (s : σ),
    Goes (stepG body) k s ∨ ∀ j, L (k + j) s = L k s
  | 0, _ => .inl trivial
  | k + 1, s => by
    cases hb : body s with
    | inr a =>
      right; intro j
      rw [show k + 1 + j = (k + j) + 1 by omega, hL.succ, hL.succ, hb]
    | inl s' =>
      rcases hL.goes k s' with h | h
      · exact .inl ⟨s', by simp [stepG, hb], h⟩
      · right; intro j
        rw [show k + 1 + j = (k + j) + 1 by omega, hL.succ, hL.succ, hb]
        exact h j

theorem IsLoopG.diverge {L : Nat → σ → ρ} {body : σ → σ ⊕ ρ} {dv : ρ} (hL : IsLoopG L body dv) : ∀ (k : Nat) (s : σ),
    Goes (stepG body) k s → L k s = dv
  | 0, s, _ => hL.zero s
  | k + 1, s, ⟨s', h, hg⟩ => by
    rw [hL.succ]
    unfold stepG at h
    split at h
    · next hb => cases h; rw [hb]; exact hL.diverge k _ hg
    · cases h

theorem IsLoopG.enough {L : Nat → σ → ρ} {body : σ → σ ⊕ ρ} {dv : ρ} (hL : IsLoopG L body dv) (I : σ → Prop)
    (hI : ∀ s s', I s → stepG body s = some s' → I s')
    {N : Nat} (enc : σ → Nat) (hlt : ∀ s s' s'', I s → stepG body s = some s' → stepG body s' = some s'' → enc s < N)
    (hinj : ∀ s s' s'' t t' t'', I s → I t → stepG body s = some s' → stepG body s' = some s'' → stepG body t = some t' →
      stepG body t' = some t'' → enc s = enc t → s = t)
    {F : Nat} (hF : N + 1 < F) {s : σ} (hs : I s) (k : Nat) : L (F + k) s = L F s := by
  rcases hL.goes F s with h | h
  · have h1 : Goes (stepG body) (N + 2) s := by
      rw [goes_iff] at h ⊢
      exact fun i hi => h i (by omega)
    have hfor := goes_forever I hI enc hlt hinj hs h1
    rw [hL.diverge _ _ (hfor _), hL.diverge _ _ (hfor _)]
  · exact h k

end Fuel

section
variable {T S τ : Type} {cap : Nat} {cl : T → Option T}

/-- At most `n` states of the source traverser are followed by two `Close` events. -/
def SrcFin (src : Forest.CloneSrc T τ) (f : Forest T) (n : Nat) : Prop :=
  ∀ tr0, ∃ I : τ → Prop, I tr0 ∧ (∀ tr ev tr', I tr → src.next f tr = .ok (some ev, tr') → I tr') ∧
    ∃ enc : τ → Nat,
      (∀ tr x tr' y tr'', I tr → src.next f tr = .ok (some (.cls x), tr') → src.next f tr' = .ok (some (.cls y), tr'') →
        enc tr < n) ∧
      (∀ tr x tr' y tr'' ur x' ur' y' ur'', I tr → I ur →
        src.next f tr = .ok (some (.cls x), tr') → src.next f tr' = .ok (some (.cls y), tr'') →
        src.next f ur = .ok (some (.cls x'), ur') → src.next f ur' = .ok (some (.cls y'), ur'') →
        enc tr = enc ur → tr = ur)

/-- A round of the loop of `clone_next_node`. -/
def cloneBodyG (cap : Nat) (cl : T → Option T) (src : Forest.CloneSrc T τ) (f : Forest T) (s : Nat × τ) :
    (Nat × τ) ⊕ Res (Forest T) (Option Nat × Nat × τ) :=
  match src.next f s.2 with
  | .ok (some (.cls _), tr') =>
    match f.hier.neighbors s.1 with
    | some nb =>
      match nb.parent with
      | some p => .inl (p, tr')
      | none => .inr (.ok (none, s.1, tr') f)
    | none => .inr (.fail (.panic "[consistency] the node being created must be alive") f)
  | _ => .inr (Forest.cloneNextNode cap cl src 1 s.1 s.2 f)

theorem cloneNextNode_loop (src : Forest.CloneSrc T τ) (f : Forest T) :
    IsLoopG (fun k (s : Nat × τ) => Forest.cloneNextNode cap cl src k s.1 s.2 f) (cloneBodyG cap cl src f)
      (.fail .diverge f) := by
  refine ⟨fun _ => rfl, fun k s => ?_⟩
  obtain ⟨cur, tr⟩ := s
  simp only [cloneBodyG]
  cases hn : src.next f tr with
  | error e => simp only [Forest.cloneNextNode, M.run_bind, M.read, hn]
  | ok q =>
    obtain ⟨ev, tr'⟩ := q
    cases ev with
    | none => simp only [Forest.cloneNextNode, M.run_bind, M.read, hn]
    | some ev =>
      cases ev with
      | opn x => simp only [Forest.cloneNextNode, M.run_bind, M.read, hn]
      | cls x =>
        simp only [Forest.cloneNextNode, M.run_bind, M.read, hn, Forest.onHier, M.zoom, Hier.nbrOf]
        cases hnb : f.hier.neighbors cur with
        | none => simp [expect]
        | some nb =>
          have hal := nbr_live hnb
          simp only [expect_some, Neighbors.getParent, hal, Bool.not_true, Bool.false_eq_true, if_false]
          cases nb.parent <;> rfl

theorem cloneStep_eq {src : Forest.CloneSrc T τ} {f : Forest T} {s s' : Nat × τ}
    (h : stepG (cloneBodyG cap cl src f) s = some s') :
    s.1 < f.hier.nbrs.length ∧ ∃ x, src.next f s.2 = .ok (some (.cls x), s'.2) := by
  unfold stepG at h
  split at h
  · next hb =>
    cases h
    unfold cloneBodyG at hb
    split at hb
    · next x tr' hn =>
      split at hb
      · next nb hnb =>
        split at hb
        · cases hb; exact ⟨nbr_lt hnb, x, hn⟩
        · cases hb
      · cases hb
    · cases hb
  · cases h

theorem cloneNextNode_fuel {src : Forest.CloneSrc T τ} {f : Forest T} {n : Nat} (hsrc : SrcFin src f n)
    {F : Nat} (hF : f.hier.nbrs.length * n + 1 < F) (cur : Nat) (tr : τ) (k : Nat) :
    Forest.cloneNextNode cap cl src (F + k) cur tr f = Forest.cloneNextNode cap cl src F cur tr f := by
  obtain ⟨I, h0, hI, enc, hlt, hinj⟩ := hsrc tr
  refine (cloneNextNode_loop (cap := cap) (cl := cl) src f).enough (fun s => I s.2) ?_ (N := f.hier.nbrs.length * n)
    (fun s => s.1 * n + enc s.2) ?_ ?_ hF (s := (cur, tr)) h0 k
  · intro s s' hi hs
    obtain ⟨_, x, hn⟩ := cloneStep_eq hs
    exact hI _ _ _ hi hn
  · intro s s' s'' hi hs hs'
    obtain ⟨h1, x, hn⟩ := cloneStep_eq hs
    obtain ⟨h2, y, hn'⟩ := cloneStep_eq hs'
    have h3 := hlt _ _ _ _ _ hi hn hn'
    calc s.1 * n + enc s.2 < s.1 * n + n := by omega
      _ = (s.1 + 1) * n := by rw [Nat.add_mul]; omega
      _ ≤ f.hier.nbrs.length * n := Nat.mul_le_mul_right _ h1
  · intro s s' s'' t t' t'' hi ht hs hs' ht1 ht1' e
    obtain ⟨h1, x, hn⟩ := cloneStep_eq hs
    obtain ⟨h2, y, hn'⟩ := cloneStep_eq hs'
    obtain ⟨g1, x', gn⟩ := cloneStep_eq ht1
    obtain ⟨g2, y', gn'⟩ := cloneStep_eq ht1'
    have h3 := hlt _ _ _ _ _ hi hn hn'
    have g3 := hlt _ _ _ _ _ ht gn gn'
    have e1 : enc s.2 = enc t.2 := by
      have := congrArg (· % n) e
      simpa [Nat.mod_eq_of_lt h3, Nat.mod_eq_of_lt g3] using this
    have e2 : s.1 = t.1 := by
      have e' : s.1 * n = t.1 * n := by omega
      exact Nat.eq_of_mul_eq_mul_right (by omega) e'
    exact Prod.ext e2 (hinj _ _ _ _ _ _ _ _ _ _ hi ht hn hn' gn gn' e1)

/-! ### The two sources -/

theorem localSrc_fin (f : Forest T) : SrcFin Forest.localSrc f f.hier.nbrs.length := by
  intro tr0
  have key : ∀ (tr : Safe.St) ev tr', Safe.next f.hier tr = .ok (some ev, tr') → tr'.root = tr.root ∧ tr.next = some ev ∧
      Safe.nextOfNext f.hier tr.root ev = .ok tr'.next := by
    rintro ⟨nx, r⟩ ev tr' h
    unfold Safe.next at h
    cases nx with
    | none => simp at h
    | some e =>
      simp only at h
      cases hnn : Safe.nextOfNext f.hier r e with
      | error er => rw [hnn] at h; cases h
      | ok nn => rw [hnn] at h; cases h; exact ⟨rfl, rfl, hnn⟩
  have key2 : ∀ (tr : Safe.St) x tr' y tr'', Safe.next f.hier tr = .ok (some (.cls x), tr') →
      Safe.next f.hier tr' = .ok (some (.cls y), tr'') → tr.next = some (.cls x) ∧ x < f.hier.nbrs.length := by
    intro tr x tr' y tr'' h1 h2
    obtain ⟨_, h3, h4⟩ := key _ _ _ h1
    obtain ⟨_, h5, _⟩ := key _ _ _ h2
    refine ⟨h3, ?_⟩
    unfold Safe.nextOfNext at h4
    split at h4
    · injection h4 with h4; rw [← h4] at h5; cases h5
    · simp only at h4
      cases hnb : f.hier.neighbors x with
      | none => rw [hnb] at h4; simp [expect] at h4
      | some nb => exact nbr_lt hnb
  refine ⟨fun tr => tr.root = tr0.root, rfl, fun tr ev tr' hi h => (key _ _ _ h).1.trans hi,
    fun tr => match tr.next with | some e => e.node | none => 0, ?_, ?_⟩
  · intro tr x tr' y tr'' _ h1 h2
    obtain ⟨h3, h4⟩ := key2 _ _ _ _ _ h1 h2
    simp only [h3]; exact h4
  · intro tr x tr' y tr'' ur x' ur' y' ur'' hi hu h1 h2 h3 h4 e
    obtain ⟨h5, _⟩ := key2 _ _ _ _ _ h1 h2
    obtain ⟨h6, _⟩ := key2 _ _ _ _ _ h3 h4
    simp only [h5, h6, Ev.node] at e
    subst e
    obtain ⟨a, b⟩ := tr
    obtain ⟨c, d⟩ := ur
    simp only at hi hu h5 h6
    rw [h5, h6, hi, hu]

theorem foreignSrc_fin (fs f : Forest T) : SrcFin (Forest.foreignSrc fs) f fs.hier.nbrs.length := by
  intro tr0
  have key : ∀ (tr : Dft.St) ev tr', Dft.next fs.hier tr = .ok (some ev, tr') → ∃ back, tr = some (ev, back) ∧
      (ev = back ∧ tr' = none ∨ ev ≠ back ∧ ((Dft.stepFwd fs.hier ev = .ok none ∧ tr' = none) ∨
        ∃ nn, Dft.stepFwd fs.hier ev = .ok (some nn) ∧ tr' = some (nn, back))) := by
    intro tr ev tr' h
    unfold Dft.next deNext at h
    cases tr with
    | none => simp at h
    | some p =>
      obtain ⟨nx, back⟩ := p
      simp only at h
      by_cases e : nx = back
      · rw [if_pos e] at h; cases h; exact ⟨back, rfl, .inl ⟨e, rfl⟩⟩
      · rw [if_neg e] at h
        cases hst : Dft.stepFwd fs.hier nx with
        | error er => rw [hst] at h; cases h
        | ok o =>
          rw [hst] at h
          cases o with
          | none => cases h; exact ⟨back, rfl, .inr ⟨e, .inl ⟨hst, rfl⟩⟩⟩
          | some nn => cases h; exact ⟨back, rfl, .inr ⟨e, .inr ⟨nn, hst, rfl⟩⟩⟩
  have key2 : ∀ (tr : Dft.St) x tr' y tr'', Dft.next fs.hier tr = .ok (some (.cls x), tr') →
      Dft.next fs.hier tr' = .ok (some (.cls y), tr'') → x < fs.hier.nbrs.length := by
    intro tr x tr' y tr'' h1 h2
    obtain ⟨back, _, h3⟩ := key _ _ _ h1
    obtain ⟨back', h4, _⟩ := key _ _ _ h2
    rcases h3 with ⟨_, h3⟩ | ⟨_, ⟨_, h3⟩ | ⟨nn, h3, _⟩⟩
    · rw [h3] at h4; cases h4
    · rw [h3] at h4; cases h4
    · simp only [Dft.stepFwd] at h3
      unfold travNbr at h3
      cases hnb : fs.hier.neighbors x with
      | none => rw [hnb] at h3; simp [expect] at h3
      | some nb => exact nbr_lt hnb
  refine ⟨fun tr => ∀ a b, tr = some (a, b) → ∃ a0, tr0 = some (a0, b), fun a b h => ⟨a, h⟩, ?_,
    fun tr => match tr with | some (e, _) => e.node | none => 0, ?_, ?_⟩
  · intro tr ev tr' hi h a b hab
    obtain ⟨back, h1, h2⟩ := key _ _ _ h
    obtain ⟨a0, ha⟩ := hi _ _ h1
    rcases h2 with ⟨_, h3⟩ | ⟨_, ⟨_, h3⟩ | ⟨nn, _, h3⟩⟩
    · rw [h3] at hab; cases hab
    · rw [h3] at hab; cases hab
    · rw [h3] at hab; cases hab; exact ⟨a0, ha⟩
  · intro tr x tr' y tr'' _ h1 h2
    obtain ⟨back, h3, _⟩ := key _ _ _ h1
    rw [h3]; exact key2 _ _ _ _ _ h1 h2
  · intro tr x tr' y tr'' ur x' ur' y' ur'' hi hu h1 h2 h3 h4 e
    obtain ⟨back, h5, _⟩ := key _ _ _ h1
    obtain ⟨back', h6, _⟩ := key _ _ _ h3
    obtain ⟨a0, ha⟩ := hi _ _ h5
    obtain ⟨a1, ha'⟩ := hu _ _ h6
    rw [ha] at ha'; cases ha'
    simp only [h5, h6, Ev.node] at e
    subst e
    rw [h5, h6]

/-! ### The outer loop: every round issues an ID -/

theorem okBind {σ α β : Type} {m : M σ α} {k : α → M σ β} {s s' : σ} {b : β} (h : (m >>= k) s = .ok b s') :
    ∃ a s1, m s = .ok a s1 ∧ k a s1 = .ok b s' := by
  rw [M.run_bind] at h
  split at h
  · next hm => exact ⟨_, _, hm, h⟩
  · cases h

theorem okRead {σ α : Type} {g : σ → R α} {s s' : σ} {a : α} (h : M.read g s = .ok a s') : s' = s ∧ g s = .ok a := by
  unfold M.read at h
  split at h <;> cases h; exact ⟨rfl, ‹_›⟩

theorem okHier {α : Type} {m : M Hier α} {f f' : Forest T} {a : α} (h : Forest.onHier m f = .ok a f') :
    m f.hier = .ok a f'.hier := by
  unfold Forest.onHier M.zoom at h
  split at h
  · next hm => cases h; exact hm
  · cases h

theorem okForest {α : Type} {m : M (Forest T) α} {p p' : Forest T × S} {a : α}
    (h : Forest.onForest m p = .ok a p') : m p.1 = .ok a p'.1 := by
  unfold Forest.onForest M.zoom at h
  split at h
  · next hm => cases h; exact hm
  · cases h

theorem createRoot_slots {h h' : Hier} {id : Nat} (hr : Hier.createRoot cap h = .ok id h') :
    h.nbrs.length < cap ∧ h'.nbrs.length = h.nbrs.length + 1 := by
  unfold Hier.createRoot Hier.fromUsize at hr
  split at hr
  · cases hr
  · next hlt =>
    split at hlt
    · cases hr; exact ⟨‹_›, by simp⟩
    · cases hlt

theorem createInsertMomo_slots {d : T} {dest : InsertAs} {f f' : Forest T} {id : Nat}
    (h : Forest.createInsertMomo cap d dest f = .ok id f') :
    f.hier.nbrs.length < cap ∧ f'.hier.nbrs.length = f.hier.nbrs.length + 1 := by
  unfold Forest.createInsertMomo at h
  obtain ⟨v, f1, h1, h2⟩ := okBind h
  obtain ⟨rfl, _⟩ := okRead h1
  split at h2
  · cases h2
  obtain ⟨n, f2, h3, h4⟩ := okBind h2
  obtain ⟨_, f3, h5, h6⟩ := okBind h4
  cases h5
  obtain ⟨r, f4, h7, h8⟩ := okBind h6
  have hk := Hier.insert_sameLive n dest f2.hier
  have h7' : Hier.insert n dest f2.hier = .ok r f4.hier := by have := okHier h7; exact this
  rw [h7'] at hk
  have hf : f' = f4 := by
    split at h8
    · cases h8
    · cases h8; rfl
  obtain ⟨h9, h10⟩ := createRoot_slots (okHier h3)
  exact ⟨h9, by rw [hf, ← h10]; exact hk.len⟩

theorem cloneNextNode_slots {src : Forest.CloneSrc T τ} : ∀ {F cur : Nat} {tr : τ} {f f' : Forest T} {y c : Nat} {tr' : τ},
    Forest.cloneNextNode cap cl src F cur tr f = .ok (some y, c, tr') f' →
      f.hier.nbrs.length < cap ∧ f'.hier.nbrs.length = f.hier.nbrs.length + 1
  | 0, _, _, _, _, _, _, _, h => by cases h
  | F + 1, cur, tr, f, f', y, c, tr', h => by
    unfold Forest.cloneNextNode at h
    obtain ⟨⟨ev, tr1⟩, f1, h1, h2⟩ := okBind h
    obtain ⟨rfl, _⟩ := okRead h1
    simp only at h2
    split at h2
    · cases h2
    · obtain ⟨d, f2, h3, h4⟩ := okBind h2
      obtain ⟨rfl, _⟩ := okRead h3
      obtain ⟨id, f3, h5, h6⟩ := okBind h4
      cases h6
      exact createInsertMomo_slots h5
    · obtain ⟨nb, f2, h3, h4⟩ := okBind h2
      obtain ⟨e, _⟩ := okRead (okHier h3)
      have hf2 : f2 = f1 := by
        unfold Forest.onHier M.zoom Hier.nbrOf M.read at h3
        simp only at h3
        split at h3
        · next hx => split at hx <;> cases hx; cases h3; rfl
        · cases h3
      subst hf2
      obtain ⟨p, f3, h5, h6⟩ := okBind h4
      obtain ⟨rfl, _⟩ := okRead h5
      split at h6
      · exact cloneNextNode_slots h6
      · cases h6

theorem callMap_fst {hook : Forest.MapHook S} {a b : Nat} {p p' : Forest T × S} {u : Unit}
    (h : Forest.callMap hook a b p = .ok u p') : p'.1 = p.1 := by
  obtain ⟨f, σ⟩ := p
  unfold Forest.callMap at h
  simp only at h
  split at h <;> cases h; rfl

/-- The loop of the clone functions has enough fuel, if the forest has no more records than there are IDs. -/
theorem cloneLoop_fuel {src : Forest.CloneSrc T τ} {hook : Forest.MapHook S} {I : Nat}
    (hI : ∀ f : Forest T, f.hier.nbrs.length ≤ cap → ∀ cur tr i,
      Forest.cloneNextNode cap cl src (I + i) cur tr f = Forest.cloneNextNode cap cl src I cur tr f) (i j : Nat) :
    ∀ (F cur : Nat) (tr : τ) (p : Forest T × S), p.1.hier.nbrs.length ≤ cap → cap - p.1.hier.nbrs.length < F →
      Forest.cloneLoop cap cl src hook (I + i) (F + j) cur tr p = Forest.cloneLoop cap cl src hook I F cur tr p
  | 0, _, _, _, _, h => by omega
  | F + 1, cur, tr, p, hle, hF => by
    rw [show F + 1 + j = (F + j) + 1 by omega]
    simp only [Forest.cloneLoop, M.run_bind, Forest.onForest, M.zoom, hI p.1 hle]
    cases hn : Forest.cloneNextNode cap cl src I cur tr p.1 with
    | fail e s => rfl
    | ok q f' =>
      obtain ⟨o, cur', tr'⟩ := q
      cases o with
      | none => rfl
      | some y =>
        obtain ⟨h1, h2⟩ := cloneNextNode_slots hn
        simp only [M.run_bind]
        cases hc : Forest.callMap hook y cur' (f', p.2) with
        | fail e s => rfl
        | ok u p' =>
          have e := callMap_fst hc
          simp only at e
          exact cloneLoop_fuel hI i j F cur' tr' p' (by rw [e]; omega) (by rw [e]; omega)

theorem createRootF_slots {d : T} {f f' : Forest T} {id : Nat} (h : Forest.createRoot cap d f = .ok id f') :
    f'.hier.nbrs.length ≤ cap := by
  unfold Forest.createRoot at h
  obtain ⟨n, f1, h1, h2⟩ := okBind h
  obtain ⟨l, f2, h3, h4⟩ := okBind h2
  obtain ⟨rfl, _⟩ := okRead h3
  obtain ⟨h5, h6⟩ := createRoot_slots (okHier h1)
  split at h4
  · cases h4
  · obtain ⟨_, f3, h7, h8⟩ := okBind h4
    cases h7; cases h8
    simp only; omega

/-- `clone_local_tree_with_id_mapping` with any fuel. -/
def cloneLocalFueled (cap : Nat) (cl : T → Option T) (hook : Forest.MapHook S) (I F : Nat)
    (srcId : Nat) : M (Forest T × S) Nat := do
  let d ← M.read fun p => expect (p.1.getData srcId) "[consistency] the node must be alive"
  let d ← M.read fun _ => expect (cl d) "T::clone panicked"
  let rootId ← Forest.onForest (Forest.createRoot cap d)
  Forest.callMap hook srcId rootId
  let tr ← M.read fun p => Safe.new srcId p.1.hier
  let (_, tr) ← M.read fun p => Safe.next p.1.hier tr
  let (cur, _) ← Forest.cloneLoop cap cl Forest.localSrc hook I F rootId tr
  if cur ≠ rootId then
    M.panic "[consistency] all nodes including the root must have been closed"
  else pure rootId

/-- `clone_foreign_tree_with_id_mapping` with any fuel. -/
def cloneForeignFueled (cap : Nat) (cl : T → Option T) (hook : Forest.MapHook S) (I F : Nat)
    (fsrc : Forest T) (srcRoot : Nat) : M (Forest T × S) Nat := do
  let d ← M.read fun _ =>
    expect (fsrc.getData srcRoot) "[validity] the node has been checked to be alive"
  let d ← M.read fun _ => expect (cl d) "T::clone panicked"
  let rootId ← Forest.onForest (Forest.createRoot cap d)
  Forest.callMap hook srcRoot rootId
  let tr ← M.read fun _ => Dft.withToplevel srcRoot fsrc.hier
  let (_, tr) ← M.read fun _ => Dft.next fsrc.hier tr
  let (cur, tr) ← Forest.cloneLoop cap cl (Forest.foreignSrc fsrc) hook I F rootId tr
  if cur ≠ rootId then
    M.panic "[consistency] traversal must end with the closing of the destination root node"
  else do
    let (last, _) ← M.read fun _ => Dft.next fsrc.hier tr
    if last ≠ none then
      M.panic "[consistency] traversal must also end with the closing of the source root node"
    else pure rootId

theorem bind_congr_ok {σ α β : Type} {m : M σ α} {k k' : α → M σ β} {s : σ}
    (h : ∀ a s', m s = .ok a s' → k a s' = k' a s') : (m >>= k) s = (m >>= k') s := by
  rw [M.run_bind, M.run_bind]
  cases hm : m s with
  | fail e s' => rfl
  | ok a s' => exact h a s' hm

/-- Local clones have enough fuel. -/
theorem cloneLocal_fuel (hook : Forest.MapHook S) (x i j : Nat) :
    cloneLocalFueled cap cl hook (Forest.cloneFuel cap cap + i) (cap + 1 + j) x =
      (Forest.cloneLocalTreeWithIdMapping cap cl hook x : M (Forest T × S) Nat) := by
  funext p
  unfold cloneLocalFueled Forest.cloneLocalTreeWithIdMapping
  refine bind_congr_ok fun d p1 h1 => bind_congr_ok fun d' p2 h2 => bind_congr_ok fun r p3 h3 =>
    bind_congr_ok fun _ p4 h4 => bind_congr_ok fun tr p5 h5 => bind_congr_ok fun q p6 h6 => ?_
  obtain ⟨ev, tr'⟩ := q
  obtain ⟨rfl, _⟩ := okRead h5
  obtain ⟨rfl, _⟩ := okRead h6
  have hle : p6.1.hier.nbrs.length ≤ cap := by
    rw [callMap_fst h4]; exact createRootF_slots (okForest h3)
  simp only [M.run_bind]
  rw [cloneLoop_fuel (I := Forest.cloneFuel cap cap) ?_ i j (cap + 1) r tr' p6 hle (by omega)]
  intro f hf cur tr i
  refine cloneNextNode_fuel (localSrc_fin f) ?_ cur tr i
  unfold Forest.cloneFuel
  have := Nat.mul_le_mul hf hf
  nlinarith

/-- Foreign clones have enough fuel. -/
theorem cloneForeign_fuel (hook : Forest.MapHook S) (fs : Forest T) (x i j : Nat) :
    cloneForeignFueled cap cl hook (Forest.cloneFuel cap fs.hier.nbrs.length + i) (cap + 1 + j) fs x =
      (Forest.cloneForeignTreeWithIdMapping cap cl hook fs x : M (Forest T × S) Nat) := by
  funext p
  unfold cloneForeignFueled Forest.cloneForeignTreeWithIdMapping
  refine bind_congr_ok fun d p1 h1 => bind_congr_ok fun d' p2 h2 => bind_congr_ok fun r p3 h3 =>
    bind_congr_ok fun _ p4 h4 => bind_congr_ok fun tr p5 h5 => bind_congr_ok fun q p6 h6 => ?_
  obtain ⟨ev, tr'⟩ := q
  obtain ⟨rfl, _⟩ := okRead h5
  obtain ⟨rfl, _⟩ := okRead h6
  have hle : p6.1.hier.nbrs.length ≤ cap := by
    rw [callMap_fst h4]; exact createRootF_slots (okForest h3)
  simp only [M.run_bind]
  rw [cloneLoop_fuel (I := Forest.cloneFuel cap fs.hier.nbrs.length) ?_ i j (cap + 1) r tr' p6 hle (by omega)]
  intro f hf cur tr i
  refine cloneNextNode_fuel (foreignSrc_fin fs f) ?_ cur tr i
  unfold Forest.cloneFuel
  have := Nat.mul_le_mul_right fs.hier.nbrs.length hf
  nlinarith

end

end Treena
