import Verif.Spec.CopyEffect
import Verif.Proof.CopyAny
import Verif.Proof.CloneEffect
/-!
# Copying a tree of which nothing is known, with a `T::clone` that has effects
-/
set_option autoImplicit false

namespace Treena
open Shape
variable {T S τ : Type} {cap : Nat} {Q : Nat → Prop} {cl : Forest.CloneFn S T} {hook : Forest.MapHook S}
variable {hs : Hier} {ds : List (Option T)} {Fine : Forest T → Prop} {St : τ → Dft.St → Prop}
  {R : Nat → T → Prop} {f0 g0 f g : Forest T} {s0 s : Shape} {L : List (Nat × T)} {E : List (Ev Nat)} {src : Forest.CloneSrc T τ}

/-- Any datum will do. -/
def anyRel (T : Type) : Nat → T → Prop := fun _ _ => True

/-- The datum of a node. -/
def datum (ds : List (Option T)) (x : Nat) : Option T := (ds[x]?).bind fun o => o

/-- The traversal does not go on. -/
def StopsAt (hs : Hier) (ds : List (Option T)) (st : Dft.St) : Prop :=
  (∃ e, Dft.next hs st = .error e) ∨ (∃ st', Dft.next hs st = .ok (none, st')) ∨ ∃ y st', Dft.next hs st = .ok (some (.opn y), st') ∧ datum ds y = none

theorem sourceData_inv {l : List (Option T)} {x : Nat} {d : T} (h : Forest.sourceData l x = .ok d) : datum l x = some d := by
  unfold Forest.sourceData at h
  unfold datum
  cases e : l[x]? with
  | none => rw [e] at h; cases h
  | some o =>
    rw [e] at h
    cases o with
    | none => cases h
    | some d0 => cases h; rfl

theorem sourceData_err {l : List (Option T)} {x : Nat} {e : Fail} (h : Forest.sourceData l x = .error e) : datum l x = none ∧ ∃ m, e = .panic m := by
  unfold Forest.sourceData at h
  unfold datum
  cases e' : l[x]? with
  | none => rw [e'] at h; cases h; exact ⟨rfl, _, rfl⟩
  | some o =>
    rw [e'] at h
    cases o with
    | none => cases h; exact ⟨rfl, _, rfl⟩
    | some d0 => cases h

theorem datum_eq {l l' : List (Option T)} {x : Nat} (h : l[x]? = l'[x]?) : datum l x = datum l' x := by
  unfold datum; rw [h]

namespace Copying

theorem nextE (hr : SrcRel (fun _ => none) src hs ds Fine St) {st0 : Dft.St}
    (hfine : ∀ ⦃f g : Forest T⦄ ⦃s : Shape⦄ ⦃L : List (Nat × T)⦄ ⦃E : List (Ev Nat)⦄, Copying cap Q (anyRel T) f0 g0 s0 f g s L E → Fine f) (σ : S) :
    ∀ (fuel cur : Nat) (tr : τ) (st : Dft.St), s0.size ≤ cur → cur < fuel → St tr st →
    ∀ ⦃f g : Forest T⦄ ⦃s : Shape⦄ ⦃L : List (Nat × T)⦄ ⦃E : List (Ev Nat)⦄, Copying cap Q (anyRel T) f0 g0 s0 f g s L E → cur < s.size →
    Atop s s0.size cur (brackets E).1 → Yields (Dft.next hs) st0 E st →
    (∃ x d0 d σ1 tr' st' f' g' s' E', Forest.cloneNextNodeE cap cl src fuel cur tr (f, σ) = .ok (some x, s.size, tr') (f', σ1) ∧
      datum ds x = some d0 ∧ cl σ d0 = .ok (d, σ1) ∧ s.size < cap ∧ s'.size = s.size + 1 ∧
      Copying cap Q (anyRel T) f0 g0 s0 f' g' s' (L ++ [(x, d)]) (E ++ E') ∧ Atop s' s0.size s.size (brackets (E ++ E')).1 ∧ St tr' st' ∧
      Yields (Dft.next hs) st0 (E ++ E') st') ∨
    (∃ tr' st1 st' E' z, Forest.cloneNextNodeE cap cl src fuel cur tr (f, σ) = .ok (none, s0.size, tr') (f, σ) ∧
      Copying cap Q (anyRel T) f0 g0 s0 f g s L (E ++ E') ∧
      Yields (Dft.next hs) st0 (E ++ E') st1 ∧ Dft.next hs st1 = .ok (some (.cls z), st') ∧ (brackets (E ++ E' ++ [.cls z])).1 = [] ∧ St tr' st') ∨
    (∃ x d0 st1 st' E', Copying cap Q (anyRel T) f0 g0 s0 f g s L (E ++ E') ∧ Yields (Dft.next hs) st0 (E ++ E') st1 ∧
      Dft.next hs st1 = .ok (some (.opn x), st') ∧ datum ds x = some d0 ∧
      ((∃ σ1, cl σ d0 = .error σ1 ∧ Forest.cloneNextNodeE cap cl src fuel cur tr (f, σ) = .fail clonePanic (f, σ1)) ∨
        ∃ d σ1, cl σ d0 = .ok (d, σ1) ∧ cap ≤ s.size ∧ Forest.cloneNextNodeE cap cl src fuel cur tr (f, σ) = .fail overflow (f, σ1))) ∨
    ∃ msg st' E', Forest.cloneNextNodeE cap cl src fuel cur tr (f, σ) = .fail (.panic msg) (f, σ) ∧ Copying cap Q (anyRel T) f0 g0 s0 f g s L (E ++ E') ∧
      Yields (Dft.next hs) st0 (E ++ E') st' ∧ StopsAt hs ds st' ∧ (brackets (E ++ E')).1 ≠ []
  | 0, cur, tr, _, _, hf => by omega
  | fuel + 1, cur, tr, st, h1, hf => by
    intro hst f g s L E h h2 ha hy
    have hne : (brackets (E ++ [])).1 ≠ [] := fun e => by
      rw [List.append_nil] at e
      have := ha.1
      rw [e] at this; cases this
    unfold Forest.cloneNextNodeE
    simp only [M.run_bind, M.read]
    cases hn : src.next f tr with
    | error e =>
      obtain ⟨m, rfl⟩ := not_hung (hr.halts f tr) hn
      exact .inr (.inr (.inr ⟨m, st, [], rfl, by rwa [List.append_nil], by rwa [List.append_nil], .inl (hr.stops f tr st _ (hfine h) hst hn), hne⟩))
    | ok q =>
      obtain ⟨ev, tr'⟩ := q
      obtain ⟨st', hn', hst'⟩ := hr.step f tr st ev tr' (hfine h) hst hn
      dsimp only
      cases ev with
      | none => exact .inr (.inr (.inr ⟨_, st, [], rfl, by rwa [List.append_nil], by rwa [List.append_nil], .inr (.inl ⟨st', hn'⟩), hne⟩))
      | some ev =>
        cases ev with
        | opn x =>
          have hdat := datum_eq (hr.data f tr st x tr' (hfine h) hst hn)
          cases hd : Forest.sourceData (src.data f) x with
          | error e =>
            obtain ⟨hnone, m, rfl⟩ := sourceData_err hd
            exact .inr (.inr (.inr ⟨m, st, [], by simp only [M.run_bind, M.read, hd], by rwa [List.append_nil], by rwa [List.append_nil],
              .inr (.inr ⟨x, st', hn', hdat ▸ hnone⟩), hne⟩))
          | ok d0 =>
            have hsome : datum ds x = some d0 := hdat ▸ sourceData_inv hd
            simp only [M.run_bind, M.read, hd, Forest.callClone]
            cases hcl : cl σ d0 with
            | error σ1 =>
              exact .inr (.inr (.inl ⟨x, d0, st, st', [], by rwa [List.append_nil], by rwa [List.append_nil], hn', hsome, .inl ⟨σ1, hcl, rfl⟩⟩))
            | ok q =>
              obtain ⟨d, σ1⟩ := q
              simp only [M.run_bind, Forest.onForest, M.zoom]
              rcases h.child (x := x) (d := d) h1 h2 ha trivial with ⟨f', g', s', e, hs, h', ha'⟩ | ⟨e, hful⟩
              · have := h'.fits
                exact .inl ⟨x, d0, d, σ1, tr', st', f', g', s', [.opn x], by rw [e]; rfl, hsome, hcl, by omega, hs, h', ha', hst', hy.snoc hn'⟩
              · exact .inr (.inr (.inl ⟨x, d0, st, st', [], by rwa [List.append_nil], by rwa [List.append_nil], hn', hsome,
                  .inr ⟨d, σ1, hcl, hful, by rw [e]⟩⟩))
        | cls x =>
          have hal := h.one cur h1 h2
          have hnb : f.hier.neighbors cur = some (s.link cur) := by
            rw [h.same.links cur (h.inQ cur h1 h2), models_neighbors h.grown.models, hal]; rfl
          have hlive := nbr_live hnb
          simp only [M.run_bind, Forest.onForest, Forest.onHier, M.zoom, Hier.nbrOf, M.read, hnb, expect_some, Neighbors.getParent, hlive, Bool.not_true,
            Bool.false_eq_true, if_false]
          cases hp : (s.link cur).parent with
          | none =>
            have hcur : cur = s0.size := (h.tops cur h1 h2).1 hp
            exact .inr (.inl ⟨tr', st, st', [], x, by rw [← hcur]; rfl, by rwa [List.append_nil], by rwa [List.append_nil], hn', by rw [List.append_nil]; exact closeLast x ha hp, hst'⟩)
          | some p =>
            have hp' : s.parent cur = some p := hp
            obtain ⟨h3, h4⟩ := h.low cur p h1 hp'
            obtain ⟨h5, h6⟩ := h.close (x := x) ha hp'
            rcases nextE hr hfine σ fuel p tr' st' h3 (by omega) hst' h5 (by omega) h6 (hy.snoc hn') with
              ⟨x', d0, d, σ1, tr2, st2, f', g', s', E', k⟩ | ⟨tr2, st1, st2, E', z, k⟩ | ⟨y, d0, st1, st2, E', k⟩ | ⟨msg, st2, E', k⟩
            · refine .inl ⟨x', d0, d, σ1, tr2, st2, f', g', s', .cls x :: E', ?_⟩
              simpa using k
            · refine .inr (.inl ⟨tr2, st1, st2, .cls x :: E', z, ?_⟩)
              simpa using k
            · refine .inr (.inr (.inl ⟨y, d0, st1, st2, .cls x :: E', ?_⟩))
              simpa using k
            · refine .inr (.inr (.inr ⟨msg, st2, .cls x :: E', ?_⟩))
              simpa using k

end Copying

theorem replay_snoc {n : Nat} {σ0 σ : S} {l : List (Nat × T)} {cs : List T} (h : replay cap cl hook n σ0 l = (cs, σ, none)) (q : Nat × T) :
    replay cap cl hook n σ0 (l ++ [q]) = (cs ++ (replay cap cl hook (n + l.length) σ [q]).1, (replay cap cl hook (n + l.length) σ [q]).2) := by
  rw [replay_append, h]

theorem withData_snoc {dat : Nat → Option T} (ys : List Nat) {x : Nat} {d : T} (h : dat x = some d) : withData dat (ys ++ [x]) = withData dat ys ++ [(x, d)] := by
  rw [withData_append]
  simp [withData, h]

/-- All nodes opened have data. -/
def Dated (ds : List (Option T)) (E : List (Ev Nat)) : Prop := ∀ y ∈ openedBy E, datum ds y ≠ none

theorem Dated.snoc (h : Dated ds E) {x : Nat} {d : T} (hx : datum ds x = some d) : Dated ds (E ++ [.opn x]) := by
  intro y hy
  rw [openedBy_snoc_opn, List.mem_append] at hy
  rcases hy with hy | hy
  · exact h y hy
  · rw [List.mem_singleton] at hy
    rw [hy, hx]; nofun

theorem Dated.length (h : Dated ds E) : (withData (datum ds) (openedBy E)).length = (openedBy E).length :=
  length_withData fun y hy => by
    cases e : datum ds y with
    | none => exact absurd e (h y hy)
    | some d => exact ⟨d, rfl⟩

/-- What the calls for the nodes opened so far come to. -/
def replayed (cap : Nat) (cl : Forest.CloneFn S T) (hook : Forest.MapHook S) (ds : List (Option T)) (n : Nat) (c : S) (E : List (Ev Nat)) : List T × S × Option Fail :=
  replay cap cl hook n c (withData (datum ds) (openedBy E))

/-- The tree made so far. -/
def MadeOf (cap : Nat) (Q : Nat → Prop) (f0 g0 : Forest T) (s0 : Shape) (f : Forest T) (E : List (Ev Nat)) (cs : List T) : Prop :=
  ∃ g s L E0, E0 <+: E ∧ Copying cap Q (anyRel T) f0 g0 s0 f g s L E0 ∧ L.map Prod.snd = cs

theorem Copying.opened (h : Copying cap Q (anyRel T) f0 g0 s0 f g s L E) : (openedBy E).length = L.length := by
  rw [← h.srcs, List.length_map]

theorem opened_nil {E K : List (Ev Nat)} {L : List (Nat × T)} (h : Copying cap Q (anyRel T) f0 g0 s0 f g s L E)
    (h' : Copying cap Q (anyRel T) f0 g0 s0 f g s L (E ++ K)) : openedBy (E ++ K) = openedBy E := by
  rw [← h.srcs, ← h'.srcs]

theorem replayed_snoc {n : Nat} {c σ : S} {cs : List T} (h : replayed cap cl hook ds n c E = (cs, σ, none)) {x : Nat} {d0 : T} (hx : datum ds x = some d0)
    (hall : Dated ds E) : replayed cap cl hook ds n c (E ++ [.opn x]) =
      (cs ++ (replay cap cl hook (n + (openedBy E).length) σ [(x, d0)]).1, (replay cap cl hook (n + (openedBy E).length) σ [(x, d0)]).2) := by
  unfold replayed at *
  rw [openedBy_snoc_opn, withData_snoc _ hx, replay_snoc h, hall.length]

theorem Copying.loopE (hr : SrcRel (fun _ => none) src hs ds Fine St) {st0 : Dft.St}
    (hfine : ∀ ⦃f g : Forest T⦄ ⦃s : Shape⦄ ⦃L : List (Nat × T)⦄ ⦃E : List (Ev Nat)⦄, Copying cap Q (anyRel T) f0 g0 s0 f g s L E → Fine f)
    (c : S) {I : Nat} (hI : cap < I) :
    ∀ (fuel cur : Nat) (tr : τ) (st : Dft.St), s0.size ≤ cur → St tr st →
    ∀ ⦃f g : Forest T⦄ ⦃s : Shape⦄ ⦃L : List (Nat × T)⦄ ⦃E : List (Ev Nat)⦄ ⦃σ : S⦄, Copying cap Q (anyRel T) f0 g0 s0 f g s L E → cur < s.size → cap - s.size < fuel →
    Atop s s0.size cur (brackets E).1 → Yields (Dft.next hs) st0 E st → Dated ds E →
    replayed cap cl hook ds s0.size c E = (L.map Prod.snd, σ, none) →
    ∃ f' E' st' cs σ' o, (∃ K, E' = E ++ K) ∧ Yields (Dft.next hs) st0 E' st' ∧ Dated ds E' ∧
      replayed cap cl hook ds s0.size c E' = (cs, σ', o) ∧ MadeOf cap Q f0 g0 s0 f' E' cs ∧
      ((∃ e, o = some e ∧ Forest.cloneLoopE cap cl src hook I fuel cur tr (f, σ) = .fail e (f', σ')) ∨
        (o = none ∧ ((∃ tr' st2 z, Forest.cloneLoopE cap cl src hook I fuel cur tr (f, σ) = .ok (s0.size, tr') (f', σ') ∧
            Dft.next hs st' = .ok (some (.cls z), st2) ∧ (brackets (E' ++ [.cls z])).1 = [] ∧ St tr' st2) ∨
          ∃ msg, Forest.cloneLoopE cap cl src hook I fuel cur tr (f, σ) = .fail (.panic msg) (f', σ') ∧ (brackets E').1 ≠ [] ∧ StopsAt hs ds st')))
  | 0, _, _, _, _ => by intro _ f g s L E σ _ _ hf; omega
  | fuel + 1, cur, tr, st, h1 => by
    intro hst f g s L E σ h h2 hf ha hy hall hrep
    unfold Forest.cloneLoopE
    have hsz0 := h.fits
    have hlen := h.len
    have hop := h.opened
    rcases Copying.nextE (cl := cl) hr hfine σ I cur tr st h1 (by omega) hst h h2 ha hy with
      ⟨x, d0, d, σ1, tr', st', f', g', s', E1, e, hdat, hcl, hcap, hsz, h', ha', hst', hy'⟩ | ⟨tr', st1, st', E1, z, e, h', hy', hn, hz, hst'⟩ |
      ⟨x, d0, st1, st', E1, h', hy', hn, hdat, hbad⟩ | ⟨msg, st', E1, e, h', hy', hsk, hne⟩
    · simp only [M.run_bind, e]
      have hopen : openedBy (E ++ E1) = openedBy E ++ [x] := by rw [← h'.srcs, ← h.srcs, List.map_append]; rfl
      have hall' : Dated ds (E ++ E1) := by
        have := hall.snoc hdat
        unfold Dated at *
        rwa [openedBy_snoc_opn, ← hopen] at this
      have hrep' := replayed_snoc hrep hdat hall
      rw [hop, ← hlen] at hrep'
      have hrepE : replayed cap cl hook ds s0.size c (E ++ E1) = replayed cap cl hook ds s0.size c (E ++ [.opn x]) := by
        unfold replayed; rw [hopen, openedBy_snoc_opn]
      rw [← hrepE] at hrep'
      simp only [replay, hcl, if_neg (Nat.not_le_of_lt hcap)] at hrep'
      unfold Forest.callMap
      cases hh : hook σ1 x s.size with
      | error σ2 =>
        simp only [hh] at hrep' ⊢
        exact ⟨f', _, st', _, σ2, _, ⟨E1, rfl⟩, hy', hall', hrep', ⟨g', s', _, _, List.prefix_rfl, h', by simp⟩, .inl ⟨_, rfl, rfl⟩⟩
      | ok σ2 =>
        simp only [hh] at hrep' ⊢
        have hfit := h'.fits
        have hge := h.grown.size
        obtain ⟨f2, E2, st2, cs, σ3, o, ⟨K, k1⟩, k2⟩ := Copying.loopE hr hfine c hI fuel s.size tr' st' hge hst' h' (by omega) (by omega) ha' hy' hall'
          (σ := σ2) (by rw [hrep']; simp)
        exact ⟨f2, E2, st2, cs, σ3, o, ⟨E1 ++ K, by rw [k1, List.append_assoc]⟩, k2⟩
    · simp only [M.run_bind, e]
      have hopen := opened_nil h h'
      have hrep' : replayed cap cl hook ds s0.size c (E ++ E1) = (L.map Prod.snd, σ, none) := by rw [← hrep]; unfold replayed; rw [hopen]
      exact ⟨f, _, st1, _, σ, _, ⟨E1, rfl⟩, hy', by unfold Dated; rw [hopen]; exact hall, hrep', ⟨g, s, L, _, List.prefix_rfl, h', rfl⟩,
        .inr ⟨rfl, .inl ⟨tr', st', z, rfl, hn, hz, hst'⟩⟩⟩
    · have hopen := opened_nil h h'
      have hrep' : replayed cap cl hook ds s0.size c (E ++ E1) = (L.map Prod.snd, σ, none) := by rw [← hrep]; unfold replayed; rw [hopen]
      have hall' : Dated ds (E ++ E1) := by unfold Dated; rw [hopen]; exact hall
      have hrep2 := replayed_snoc hrep' hdat hall'
      rw [h'.opened, ← hlen] at hrep2
      have hmade : MadeOf cap Q f0 g0 s0 f ((E ++ E1) ++ [.opn x]) (L.map Prod.snd) := ⟨g, s, L, E ++ E1, List.prefix_append _ _, h', rfl⟩
      have hy2 := hy'.snoc hn
      rcases hbad with ⟨σ1, hcl, e⟩ | ⟨d, σ1, hcl, hcap, e⟩
      · simp only [M.run_bind, e]
        simp only [replay, hcl] at hrep2
        exact ⟨f, _, st', _, σ1, _, ⟨E1 ++ [.opn x], by rw [List.append_assoc]⟩, hy2, hall'.snoc hdat, hrep2, by simpa using hmade, .inl ⟨_, rfl, rfl⟩⟩
      · simp only [M.run_bind, e]
        simp only [replay, hcl, if_pos hcap] at hrep2
        exact ⟨f, _, st', _, σ1, _, ⟨E1 ++ [.opn x], by rw [List.append_assoc]⟩, hy2, hall'.snoc hdat, hrep2, by simpa using hmade, .inl ⟨_, rfl, rfl⟩⟩
    · simp only [M.run_bind, e]
      have hopen := opened_nil h h'
      have hrep' : replayed cap cl hook ds s0.size c (E ++ E1) = (L.map Prod.snd, σ, none) := by rw [← hrep]; unfold replayed; rw [hopen]
      exact ⟨f, _, st', _, σ, _, ⟨E1, rfl⟩, hy', by unfold Dated; rw [hopen]; exact hall, hrep', ⟨g, s, L, _, List.prefix_rfl, h', rfl⟩,
        .inr ⟨rfl, .inr ⟨msg, rfl, hne, hsk⟩⟩⟩

/-- What a copying call does: nothing, or it makes a tree. -/
def EffectResult (cap : Nat) (strict : Bool) (Q : Nat → Prop) (cl : Forest.CloneFn S T) (hs : Hier) (ds : List (Option T)) (hook : Forest.MapHook S) (x : Nat)
    (f g : Forest T) (s : Shape) (c : S) (r : Res (Forest T × S) Nat) : Prop :=
  (datum ds x = none ∧ ∃ msg, r = .fail (.panic msg) (f, c)) ∨
  ∃ f' E st cs σ' o, Yields (Dft.next hs) (some (.opn x, .cls x)) E st ∧ E.head? = some (.opn x) ∧ Dated ds E ∧
    replayed cap cl hook ds s.size c E = (cs, σ', o) ∧ ((cs = [] ∧ f' = f) ∨ MadeOf cap Q f g s f' E cs) ∧
    ((∃ e, o = some e ∧ r = .fail e (f', σ')) ∨
      (o = none ∧ ((r = .ok s.size (f', σ') ∧ (brackets E).1 = [] ∧ (strict = true → ∃ st', Dft.next hs st = .ok (none, st'))) ∨
        ((∃ msg, r = .fail (.panic msg) (f', σ')) ∧ (((brackets E).1 ≠ [] ∧ StopsAt hs ds st) ∨
          (strict = true ∧ (brackets E).1 = [] ∧ ∀ st', Dft.next hs st ≠ .ok (none, st')))))))

theorem MadeOf.closed {cs : List T} (h : MadeOf cap Q f0 g0 s0 f E cs) (z : Nat) : MadeOf cap Q f0 g0 s0 f (E ++ [.cls z]) cs := by
  obtain ⟨g, s, L, E0, h1, h2⟩ := h
  exact ⟨g, s, L, E0, h1.trans (List.prefix_append _ _), h2⟩

theorem datum_getData (f : Forest T) (x : Nat) : datum f.data x = f.getData x := rfl

theorem effect_local (hb : Bounded f) (hc : Coherent f) (hs : SameIn cap Q f g) (hm : Models g s) (cl : Forest.CloneFn S T) (hook : Forest.MapHook S) (c : S) (x : Nat) :
    EffectResult cap false Q cl f.hier f.data hook x f g s c (Forest.cloneLocalTreeWithIdMappingE cap cl hook x (f, c)) := by
  unfold Forest.cloneLocalTreeWithIdMappingE
  cases h0 : f.getData x with
  | none => exact .inl ⟨h0, _, by simp only [M.run_bind, M.read, h0, expect]; rfl⟩
  | some d0 =>
    have hal : f.isAlive x = true := by rw [isAlive_getData, h0]; rfl
    have hnb := hc.neighbors_live hal
    obtain ⟨st1, hst1⟩ := dft_first hnb
    have hxN := nbr_lt hnb
    have hdat : datum f.data x = some d0 := h0
    have hy1 : Yields (Dft.next f.hier) (some (.opn x, .cls x)) [.opn x] st1 := ⟨st1, hst1, rfl⟩
    have hall : Dated f.data [.opn x] := Dated.snoc (E := []) (fun _ h => by cases h) hdat
    have hrep : replayed cap cl hook f.data s.size c [.opn x] = replay cap cl hook s.size c [(x, d0)] := by
      unfold replayed openedBy withData; simp [hdat]
    simp only [replay] at hrep
    simp only [M.run_bind, M.read, h0, expect_some, Forest.callClone]
    cases h1 : cl c d0 with
    | error σ1 =>
      rw [h1] at hrep
      exact .inr ⟨f, _, st1, _, σ1, _, hy1, rfl, hall, hrep, .inl ⟨rfl, rfl⟩, .inl ⟨_, rfl, rfl⟩⟩
    | ok q =>
      obtain ⟨d, σ1⟩ := q
      rw [h1] at hrep
      dsimp only at hrep ⊢
      simp only [Forest.onForest, M.zoom]
      rcases Copying.start (R := anyRel T) hs hm d x trivial with ⟨f1, g1, s1, e1, hs1, k1, ka⟩ | ⟨hful, e1⟩
      · have hfit := k1.fits
        rw [if_neg (by omega)] at hrep
        rw [e1]
        dsimp only
        unfold Forest.callMap
        have hmade : MadeOf cap Q f g s f1 [.opn x] [d] := ⟨g1, s1, _, _, List.prefix_rfl, k1, rfl⟩
        cases hh : hook σ1 x s.size with
        | error σ =>
          simp only [hh] at hrep ⊢
          exact .inr ⟨f1, _, st1, _, σ, _, hy1, rfl, hall, hrep, .inr hmade, .inl ⟨_, rfl, rfl⟩⟩
        | ok σ =>
          simp only [hh] at hrep ⊢
          have hnb1 : f1.hier.neighbors x = some (f.hier.get x) := by rw [(k1.oldAs x hxN).1]; exact hnb
          have h2 : Safe.new x f1.hier = .ok ⟨some (.opn x), x⟩ := by unfold Safe.new; rw [alive_of hnb1]; rfl
          rw [h2]
          dsimp only
          have htr : SafeAs f.hier.nbrs.length ⟨some (.opn x), x⟩ (some (.opn x, .cls x)) := ⟨rfl, hxN, .some hxN⟩
          cases h3 : Safe.next f1.hier ⟨some (.opn x), x⟩ with
          | error e =>
            obtain ⟨e', he⟩ := safe_stop (fun y hy => (k1.oldAs y hy).1) htr h3
            rw [hst1] at he; cases he
          | ok q =>
            obtain ⟨ev, tr'⟩ := q
            dsimp only
            obtain ⟨st1', h4, h5, _⟩ := safe_step hb (fun y hy => (k1.oldAs y hy).1) htr h3
            rw [hst1] at h4
            cases h4
            have hI : cap < Forest.cloneFuel cap cap + 2 * f.hier.nbrs.length := Nat.lt_of_lt_of_le (cloneFuel_gt cap cap) (Nat.le_add_right _ _)
            obtain ⟨f2, E2, st2, cs, σ2, o, ⟨K, m1⟩, m2, m3, m4, m5, m6⟩ := Copying.loopE (cl := cl) (hook := hook) (st0 := some (.opn x, .cls x)) (srcLocal hb)
              (fun f g s L E h => h.oldAs) c hI (cap + 1 + 2 * f.hier.nbrs.length) s.size tr' st1 (Nat.le_refl _) h5 k1 (by omega) (by omega) ka hy1 hall hrep
            subst m1
            rcases m6 with ⟨e, rfl, m6⟩ | ⟨rfl, ⟨tr2, st3, z, m6, m7, m8, _⟩ | ⟨msg, m6, m7, m8⟩⟩
            · rw [m6]
              exact .inr ⟨f2, _, st2, cs, σ2, _, m2, rfl, m3, m4, .inr m5, .inl ⟨_, rfl, rfl⟩⟩
            · rw [m6]
              refine .inr ⟨f2, _, st3, cs, σ2, _, m2.snoc m7, rfl, ?_, ?_, .inr (m5.closed z), .inr ⟨rfl, .inl ⟨by simp, m8, nofun⟩⟩⟩
              · unfold Dated; rw [openedBy_snoc_cls]; exact m3
              · rw [← m4]; unfold replayed; rw [openedBy_snoc_cls]
            · rw [m6]
              exact .inr ⟨f2, _, st2, cs, σ2, _, m2, rfl, m3, m4, .inr m5, .inr ⟨rfl, .inr ⟨⟨_, rfl⟩, .inl ⟨m7, m8⟩⟩⟩⟩
      · rw [if_pos hful] at hrep
        rw [e1]
        exact .inr ⟨f, _, st1, _, σ1, _, hy1, rfl, hall, hrep, .inl ⟨rfl, rfl⟩, .inl ⟨_, rfl, rfl⟩⟩

theorem effect_foreign {fsrc : Forest T} (hc : Coherent fsrc) (hs : SameIn cap Q f g) (hm : Models g s) (cl : Forest.CloneFn S T) (hook : Forest.MapHook S) (c : S) (x : Nat) :
    EffectResult cap true Q cl fsrc.hier fsrc.data hook x f g s c (Forest.cloneForeignTreeWithIdMappingE cap cl hook fsrc x (f, c)) := by
  unfold Forest.cloneForeignTreeWithIdMappingE
  cases h0 : fsrc.getData x with
  | none => exact .inl ⟨h0, _, by simp only [M.run_bind, M.read, expect]; rfl⟩
  | some d0 =>
    have hal : fsrc.isAlive x = true := by rw [isAlive_getData, h0]; rfl
    have hnb := hc.neighbors_live hal
    obtain ⟨st1, hst1⟩ := dft_first hnb
    have hdat : datum fsrc.data x = some d0 := h0
    have hy1 : Yields (Dft.next fsrc.hier) (some (.opn x, .cls x)) [.opn x] st1 := ⟨st1, hst1, rfl⟩
    have hall : Dated fsrc.data [.opn x] := Dated.snoc (E := []) (fun _ h => by cases h) hdat
    have hrep : replayed cap cl hook fsrc.data s.size c [.opn x] = replay cap cl hook s.size c [(x, d0)] := by
      unfold replayed openedBy withData; simp [hdat]
    simp only [replay] at hrep
    simp only [M.run_bind, M.read, expect_some, Forest.callClone]
    cases h1 : cl c d0 with
    | error σ1 =>
      rw [h1] at hrep
      exact .inr ⟨f, _, st1, _, σ1, _, hy1, rfl, hall, hrep, .inl ⟨rfl, rfl⟩, .inl ⟨_, rfl, rfl⟩⟩
    | ok q =>
      obtain ⟨d, σ1⟩ := q
      rw [h1] at hrep
      dsimp only at hrep ⊢
      simp only [Forest.onForest, M.zoom]
      rcases Copying.start (R := anyRel T) hs hm d x trivial with ⟨f1, g1, s1, e1, hs1, k1, ka⟩ | ⟨hful, e1⟩
      · have hfit := k1.fits
        rw [if_neg (by omega)] at hrep
        rw [e1]
        dsimp only
        unfold Forest.callMap
        have hmade : MadeOf cap Q f g s f1 [.opn x] [d] := ⟨g1, s1, _, _, List.prefix_rfl, k1, rfl⟩
        cases hh : hook σ1 x s.size with
        | error σ =>
          simp only [hh] at hrep ⊢
          exact .inr ⟨f1, _, st1, _, σ, _, hy1, rfl, hall, hrep, .inr hmade, .inl ⟨_, rfl, rfl⟩⟩
        | ok σ =>
          simp only [hh] at hrep ⊢
          have h2 : Dft.withToplevel x fsrc.hier = .ok (some (.opn x, .cls x)) := by unfold Dft.withToplevel; rw [alive_of hnb]; rfl
          rw [h2]
          dsimp only
          rw [hst1]
          dsimp only
          have hI : cap < Forest.cloneFuel cap fsrc.hier.nbrs.length + 2 * fsrc.hier.nbrs.length :=
            Nat.lt_of_lt_of_le (cloneFuel_gt cap _) (Nat.le_add_right _ _)
          obtain ⟨f2, E2, st2, cs, σ2, o, ⟨K, m1⟩, m2, m3, m4, m5, m6⟩ := Copying.loopE (cl := cl) (hook := hook) (st0 := some (.opn x, .cls x)) (srcForeign fsrc)
            (fun f g s L E h => trivial) c hI (cap + 1 + 2 * fsrc.hier.nbrs.length) s.size st1 st1 (Nat.le_refl _) rfl k1 (by omega) (by omega) ka hy1 hall hrep
          subst m1
          rcases m6 with ⟨e, rfl, m6⟩ | ⟨rfl, ⟨tr2, st3, z, m6, m7, m8, m9⟩ | ⟨msg, m6, m7, m8⟩⟩
          · rw [m6]
            exact .inr ⟨f2, _, st2, cs, σ2, _, m2, rfl, m3, m4, .inr m5, .inl ⟨_, rfl, rfl⟩⟩
          · rw [m6]
            subst m9
            simp only [ne_eq, not_true_eq_false, if_false, M.run_bind, M.read]
            have a1 : Dated fsrc.data ([.opn x] ++ K ++ [.cls z]) := by unfold Dated; rw [openedBy_snoc_cls]; exact m3
            have a2 : replayed cap cl hook fsrc.data s.size c ([.opn x] ++ K ++ [.cls z]) = (cs, σ2, none) := by
              rw [← m4]; unfold replayed; rw [openedBy_snoc_cls]
            have fin : ∀ (r : Res (Forest T × S) Nat), (∃ msg, r = .fail (.panic msg) (f2, σ2)) → (∀ st', Dft.next fsrc.hier tr2 ≠ .ok (none, st')) →
                EffectResult cap true Q cl fsrc.hier fsrc.data hook x f g s c r := fun r hr hn =>
              .inr ⟨f2, _, tr2, cs, σ2, _, m2.snoc m7, rfl, a1, a2, .inr (m5.closed z), .inr ⟨rfl, .inr ⟨hr, .inr ⟨rfl, m8, hn⟩⟩⟩⟩
            cases h4 : Dft.next fsrc.hier tr2 with
            | error e =>
              obtain ⟨m, rfl⟩ := not_hung (Halts.dftRaw tr2) h4
              exact fin _ ⟨m, rfl⟩ fun st' h => by rw [h4] at h; cases h
            | ok q2 =>
              obtain ⟨last, tr3⟩ := q2
              cases last with
              | some e => exact fin _ ⟨_, rfl⟩ fun st' h => by rw [h4] at h; cases h
              | none => exact .inr ⟨f2, _, tr2, cs, σ2, _, m2.snoc m7, rfl, a1, a2, .inr (m5.closed z), .inr ⟨rfl, .inl ⟨rfl, m8, fun _ => ⟨tr3, h4⟩⟩⟩⟩
          · rw [m6]
            exact .inr ⟨f2, _, st2, cs, σ2, _, m2, rfl, m3, m4, .inr m5, .inr ⟨rfl, .inr ⟨⟨_, rfl⟩, .inl ⟨m7, m8⟩⟩⟩⟩
      · rw [if_pos hful] at hrep
        rw [e1]
        exact .inr ⟨f, _, st1, _, σ1, _, hy1, rfl, hall, hrep, .inl ⟨rfl, rfl⟩, .inl ⟨_, rfl, rfl⟩⟩

/-- In terms of the API. -/
theorem EffectResult.with {c : S} {x : Nat} {fsrc : Forest T} {r : Res (Forest T × S) Nat} {b : Bool}
    (h : EffectResult cap b (f.issued ≤ ·) cl fsrc.hier fsrc.data hook x f (f.without (· < f.issued)) (Shape.gone f.issued) c r) :
    CopiesWith cap b cl hook fsrc x f c r := by
  rcases h with h | ⟨f', E, st, cs, σ', o, h1, h2, h3, h4, h5, h6⟩
  · exact .inl h
  · have h4' : replay cap cl hook f.issued c (withData fsrc.getData (openedBy E)) = (cs, σ', o) := h4
    refine .inr ⟨f', E, st, h1, h2, h3, ?_, ?_⟩
    · rw [h4']
      rcases h5 with h5 | ⟨g, s, L, E0, k1, k2, rfl⟩
      · exact .inl h5
      · exact .inr ⟨E0, s, k1, k2.newTree⟩
    · rw [h4']
      rcases h6 with ⟨e, rfl, h6⟩ | ⟨rfl, h6⟩
      · exact h6
      · exact h6

end Treena
