import Verif.Spec.CopyAny
import Verif.Proof.Contain
import Verif.Proof.Clone
import Verif.Proof.Hang
/-!
# Copying a tree in a forest of which only a part can be trusted

The source tree may be anything.  The new nodes lie in every part `Q` that is separate from the rest, so the copy is
made like in a forest `g` that agrees with the real one there.
-/
set_option autoImplicit false

namespace Treena
open Shape
variable {T S τ : Type} {cap : Nat} {Q : Nat → Prop} {cl : T → Option T}

namespace Halts
theorem safeNext {h : Hier} (st : Safe.St) : Halts (Safe.next h st) := by
  unfold Safe.next
  split
  · nofun
  · have : ∀ n, Halts (Safe.nextOfNext h st.root n) := by
      intro n
      unfold Safe.nextOfNext
      ends
    split
    · rename_i e; exact error (this _) e
    · nofun
theorem dftRaw {h : Hier} (st : Dft.St) : Halts (Dft.next h st) := deNext dftFwd st
theorem clonedData (l : List (Option T)) (x : Nat) : Halts (Forest.clonedData cl l x) := by
  unfold Forest.clonedData
  ends
end Halts

theorem not_hung {α : Type} {r : R α} (h : Halts r) {e : Fail} (he : r = .error e) : ∃ msg, e = .panic msg := by
  cases e with
  | panic m => exact ⟨m, rfl⟩
  | diverge => exact absurd he h

theorem Yields.snoc {ι σ : Type} {next : σ → R (Option ι × σ)} : ∀ {E : List ι} {st st' : σ} {e : ι} {st'' : σ}, Yields next st E st' →
    next st' = .ok (some e, st'') → Yields next st (E ++ [e]) st''
  | [], _, _, _, _, h, he => by cases h; exact ⟨_, he, rfl⟩
  | _ :: _, _, _, _, _, ⟨st1, h1, h2⟩, he => ⟨st1, h1, h2.snoc he⟩

theorem brackets_snoc (E : List (Ev Nat)) (e : Ev Nat) : brackets (E ++ [e]) = bracketStep (brackets E) e := by
  unfold brackets; rw [List.foldl_append]; rfl

theorem openedBy_snoc_opn (E : List (Ev Nat)) (x : Nat) : openedBy (E ++ [.opn x]) = openedBy E ++ [x] := by
  unfold openedBy; simp
theorem openedBy_snoc_cls (E : List (Ev Nat)) (x : Nat) : openedBy (E ++ [.cls x]) = openedBy E := by
  unfold openedBy; simp

/-- The copy of the datum of a node is a clone of it. -/
def CopyRel (cl : T → Option T) (ds : List (Option T)) (x : Nat) (d : T) : Prop := ∃ d0, ds[x]? = some (some d0) ∧ cl d0 = some d

/-- `f` is made of `f0` by adding one tree; `g` and `g0` are forests that agree with them in `Q`, with shapes `s` and `s0`.
`L` lists the nodes copied so far with the data of their copies, which are in the relation `R`, `E` the brackets. -/
structure Copying (cap : Nat) (Q : Nat → Prop) (R : Nat → T → Prop) (f0 g0 : Forest T) (s0 : Shape)
    (f g : Forest T) (s : Shape) (L : List (Nat × T)) (E : List (Ev Nat)) : Prop where
  init : SameIn cap Q f0 g0
  initM : Models g0 s0
  same : SameIn cap Q f g
  out : SameOut cap Q f0 f
  grown : Grown g0 s0 g s
  inQ : ∀ y, s0.size ≤ y → y < s.size → Q y
  low : ∀ y p, s0.size ≤ y → s.parent y = some p → s0.size ≤ p ∧ p < y
  one : ∀ y, s0.size ≤ y → y < s.size → s.alive y = true
  tops : ∀ y, s0.size ≤ y → y < s.size → (s.parent y = none ↔ y = s0.size)
  order : ∀ y, s0.size ≤ y → (s.kids y).Pairwise (· < ·)
  fits : s.size ≤ cap
  len : s.size = s0.size + L.length
  data : f.data = f0.data ++ L.map fun q => some q.2
  rel : ∀ q ∈ L, R q.1 q.2
  srcs : L.map Prod.fst = openedBy E
  count : (brackets E).2.length = L.length
  parents : ∀ k, k < L.length → s.parent (s0.size + k) = ((brackets E).2[k]?.join).map (s0.size + ·)

/-- The stack of open nodes is a path upwards. -/
def Stack (s : Shape) (n : Nat) : List Nat → Prop
  | [] => True
  | k :: ks => n + k < s.size ∧ s.parent (n + k) = ks.head?.map (n + ·) ∧ Stack s n ks

/-- The node worked on is the innermost open one. -/
def Atop (s : Shape) (n cur : Nat) (st : List Nat) : Prop := st.head?.map (n + ·) = some cur ∧ Stack s n st

/-- What is known about the source of a copy: the states of its traverser correspond to those of a traversal of `hs`. -/
structure SrcRel (cl : T → Option T) (src : Forest.CloneSrc T τ) (hs : Hier) (ds : List (Option T)) (Fine : Forest T → Prop)
    (St : τ → Dft.St → Prop) : Prop where
  step : ∀ f tr st o tr', Fine f → St tr st → src.next f tr = .ok (o, tr') → ∃ st', Dft.next hs st = .ok (o, st') ∧ St tr' st'
  data : ∀ f tr st x tr', Fine f → St tr st → src.next f tr = .ok (some (.opn x), tr') → (src.data f)[x]? = ds[x]?
  halts : ∀ f st, Halts (src.next f st)
  stops : ∀ f tr st e, Fine f → St tr st → src.next f tr = .error e → ∃ e', Dft.next hs st = .error e'

/-- The copy cannot go on. -/
def Stuck (cap : Nat) (cl : T → Option T) (hs : Hier) (ds : List (Option T)) (n : Nat) (st : Dft.St) : Prop :=
  (∃ e, Dft.next hs st = .error e) ∨ (∃ st', Dft.next hs st = .ok (none, st')) ∨
  ∃ x st', Dft.next hs st = .ok (some (.opn x), st') ∧ (cap ≤ n ∨ ∀ d, ds[x]? = some (some d) → cl d = none)

variable {hs : Hier} {ds : List (Option T)} {Fine : Forest T → Prop} {St : τ → Dft.St → Prop}
  {R : Nat → T → Prop} {f0 g0 f g : Forest T} {s0 s : Shape} {L : List (Nat × T)} {E : List (Ev Nat)} {src : Forest.CloneSrc T τ}

theorem clonedData_inv {l : List (Option T)} {x : Nat} {d : T} (h : Forest.clonedData cl l x = .ok d) :
    ∃ d0, l[x]? = some (some d0) ∧ cl d0 = some d := by
  unfold Forest.clonedData at h
  cases e : l[x]? with
  | none => rw [e] at h; cases h
  | some o =>
    rw [e] at h
    cases o with
    | none => cases h
    | some d0 =>
      simp only [expect_some] at h
      cases e2 : cl d0 with
      | none => rw [e2] at h; cases h
      | some d' => rw [e2] at h; cases h; exact ⟨d0, rfl, e2⟩

theorem clonedData_err {l : List (Option T)} {x : Nat} {e : Fail} (h : Forest.clonedData cl l x = .error e) :
    ∀ d, l[x]? = some (some d) → cl d = none := by
  intro d hd
  unfold Forest.clonedData at h
  simp only [hd, expect_some] at h
  cases e2 : cl d with
  | none => rfl
  | some d' => rw [e2] at h; cases h

namespace Copying

theorem oldLinks (h : Copying cap Q R f0 g0 s0 f g s L E) {y : Nat} (hy : y < s0.size) : f.hier.neighbors y = f0.hier.neighbors y := by
  by_cases hq : Q y
  · rw [h.same.links y hq, h.init.links y hq]
    rw [models_neighbors h.grown.models, models_neighbors h.initM, h.grown.alive y hy]
    split
    · rename_i ha
      have := h.grown.entry h.initM hy
      unfold Shape.entry at this
      rw [h.grown.alive y hy, if_pos ha, if_pos ha] at this
      rw [this]
    · rfl
  · unfold Hier.neighbors
    rw [h.out.links y hq]

theorem oldData (h : Copying cap Q R f0 g0 s0 f g s L E) {y : Nat} (hy : y < s0.size) : f.data[y]? = f0.data[y]? := by
  rw [h.data, List.getElem?_append_left]
  rw [h.init.dataSize, h.initM.dataLen]; exact hy

theorem child (h : Copying cap Q R f0 g0 s0 f g s L E) {cur x : Nat} {d : T} (h1 : s0.size ≤ cur) (h2 : cur < s.size)
    (ha : Atop s s0.size cur (brackets E).1) (hd : R x d) :
    (∃ f' g' s', Forest.createInsertMomo cap d (.lastChildOf cur) f = .ok s.size f' ∧ s'.size = s.size + 1 ∧
      Copying cap Q R f0 g0 s0 f' g' s' (L ++ [(x, d)]) (E ++ [.opn x]) ∧ Atop s' s0.size s.size (brackets (E ++ [.opn x])).1) ∨
    (Forest.createInsertMomo cap d (.lastChildOf cur) f = .fail overflow f ∧ cap ≤ s.size) := by
  have hal := h.one cur h1 h2
  obtain ⟨f', g', k1, k2, k3, k4⟩ := Forest.createInsert_loc (T := T) (Q := Q) cap d (dest := .lastChildOf cur)
    (h.inQ cur h1 h2) f g h.same
  by_cases hcap : s.size < cap
  · obtain ⟨g1, e1, hg, _⟩ := h.grown.addChild h1 hal hcap d
    left
    rcases k4 with ⟨a, e2, e3, hq⟩ | ⟨e, e2, e3⟩
    · rw [e1] at e3
      cases e3
      have hdat := createInsertMomo_data e2
      have hsz : (s.addChild' cur).size = s.size + 1 := rfl
      have hpar : ∀ y, y ≠ s.size → (s.addChild' cur).parent y = s.parent y := fun y hy => by
        simp only [Shape.addChild', upd]; rw [if_neg hy]
      have hpar0 : (s.addChild' cur).parent s.size = some cur := by simp [Shape.addChild', upd]
      have hst : ∀ st, Stack s s0.size st → Stack (s.addChild' cur) s0.size st := by
        intro st
        induction st with
        | nil => intro _; trivial
        | cons k ks ih =>
          rintro ⟨m1, m2, m3⟩
          exact ⟨by omega, by rw [hpar _ (by omega)]; exact m2, ih m3⟩
      refine ⟨f', _, s.addChild' cur, e2, rfl, ⟨h.init, h.initM, k1, sameOut_ord.trans h.out k2, hg, fun y hy hy' => ?_, fun y p hy hp => ?_, fun y hy hy' => ?_, fun y hy hy' => ?_,
        fun y hy => ?_, hcap, ?_, ?_, ?_, ?_, ?_, ?_⟩, ?_⟩
      · by_cases e : y = s.size
        · exact e ▸ hq
        · exact h.inQ y hy (by omega)
      · by_cases e : y = s.size
        · rw [e, hpar0] at hp; cases hp; omega
        · rw [hpar y e] at hp; exact h.low y p hy hp
      · simp only [Shape.addChild', upd]
        by_cases e : y = s.size
        · simp [e]
        · rw [if_neg e]
          exact h.one y hy (by omega)
      · by_cases e : y = s.size
        · rw [e, hpar0]
          have hlt : s0.size < s.size := by omega
          exact ⟨nofun, fun e => by omega⟩
        · rw [hpar y e]; exact h.tops y hy (by omega)
      · have hk := h.order y hy
        simp only [Shape.addChild', upd]
        split
        · rename_i e
          subst e
          refine List.pairwise_append.2 ⟨hk, List.pairwise_singleton _ _, fun a ha b hb => ?_⟩
          rw [List.mem_singleton] at hb
          subst hb
          exact h.grown.models.valid.alive_lt a (h.grown.models.valid.kid_alive ha)
        · exact hk
      · simp [hsz, h.len, Nat.add_assoc]
      · rw [hdat, h.data]; simp
      · intro q hq
        rcases List.mem_append.1 hq with hq | hq
        · exact h.rel q hq
        · simp only [List.mem_singleton] at hq
          subst hq
          exact hd
      · rw [openedBy_snoc_opn, List.map_append, h.srcs]; rfl
      · rw [brackets_snoc]; simp [bracketStep, h.count]
      · intro k hk
        rw [brackets_snoc]
        simp only [bracketStep]
        rw [List.length_append, List.length_singleton] at hk
        by_cases e : k = L.length
        · rw [List.getElem?_append_right (by rw [h.count]; omega), h.count, e, Nat.sub_self, ← h.len, hpar0]
          simp [ha.1]
        · rw [List.getElem?_append_left (by rw [h.count]; omega), hpar _ (by rw [h.len]; omega)]
          exact h.parents k (by omega)
      · rw [brackets_snoc]
        refine ⟨by simp [bracketStep, h.count, h.len], ?_⟩
        simp only [bracketStep, Stack, h.count, ← h.len]
        exact ⟨by omega, by rw [hpar0]; exact ha.1.symm, hst _ ha.2⟩
    · rw [e1] at e3; cases e3
  · right
    have e1 := createInsert_full h.grown.models (cap := cap) (by omega) d (dest := .lastChildOf cur) hal
    rcases k4 with ⟨a, e2, e3, hq⟩ | ⟨e, e2, e3⟩
    · rw [e1] at e3; cases e3
    · have e4 : Forest.createInsertMomo cap d (.lastChildOf cur) f = .fail overflow f := by
        have hval : f.hier.isValid (InsertAs.lastChildOf cur).toAnchor = true := by
          have : cur < f.hier.nbrs.length := by rw [h.same.size, h.grown.models.repr.1]; exact h2
          unfold Hier.isValid InsertAs.toAnchor; simpa using this
        have hn : ¬ f.hier.nbrs.length < cap := by rw [h.same.size, h.grown.models.repr.1]; exact hcap
        unfold Forest.createInsertMomo
        simp [M.read, hval, Forest.onHier, M.zoom, Hier.createRoot, Hier.fromUsize, hn, overflow]
      exact ⟨e4, by omega⟩

/-- Closing a node that is not the root of the copy. -/
theorem close (h : Copying cap Q R f0 g0 s0 f g s L E) {cur p x : Nat} (ha : Atop s s0.size cur (brackets E).1) (hp : s.parent cur = some p) :
    Copying cap Q R f0 g0 s0 f g s L (E ++ [.cls x]) ∧ Atop s s0.size p (brackets (E ++ [.cls x])).1 := by
  have hb : brackets (E ++ [.cls x]) = ((brackets E).1.tail, (brackets E).2) := brackets_snoc _ _
  refine ⟨⟨h.init, h.initM, h.same, h.out, h.grown, h.inQ, h.low, h.one, h.tops, h.order, h.fits, h.len, h.data, h.rel, ?_, ?_, ?_⟩, ?_⟩
  · rw [openedBy_snoc_cls]; exact h.srcs
  · rw [hb]; exact h.count
  · rw [hb]; exact h.parents
  · rw [hb]
    obtain ⟨a1, a2⟩ := ha
    cases e : (brackets E).1 with
    | nil => rw [e] at a1; cases a1
    | cons k ks =>
      rw [e] at a1 a2
      simp only [List.head?_cons, Option.map_some, Option.some.injEq] at a1
      obtain ⟨_, m2, m3⟩ := a2
      rw [a1, hp] at m2
      exact ⟨m2.symm, m3⟩

/-- Closing the root. -/
theorem closeLast {cur : Nat} (x : Nat) (ha : Atop s s0.size cur (brackets E).1) (hp : s.parent cur = none) :
    (brackets (E ++ [.cls x])).1 = [] := by
  rw [brackets_snoc]
  obtain ⟨a1, a2⟩ := ha
  simp only [bracketStep]
  cases e : (brackets E).1 with
  | nil => rfl
  | cons k ks =>
    rw [e] at a1 a2
    simp only [List.head?_cons, Option.map_some, Option.some.injEq] at a1
    obtain ⟨_, m2, m3⟩ := a2
    rw [a1, hp] at m2
    cases ks with
    | nil => rfl
    | cons a b => cases m2

theorem next (hr : SrcRel cl src hs ds Fine St) {st0 : Dft.St}
    (hfine : ∀ ⦃f g : Forest T⦄ ⦃s : Shape⦄ ⦃L : List (Nat × T)⦄ ⦃E : List (Ev Nat)⦄, Copying cap Q (CopyRel cl ds) f0 g0 s0 f g s L E → Fine f) :
    ∀ (fuel cur : Nat) (tr : τ) (st : Dft.St), s0.size ≤ cur → cur < fuel → St tr st →
    ∀ ⦃f g : Forest T⦄ ⦃s : Shape⦄ ⦃L : List (Nat × T)⦄ ⦃E : List (Ev Nat)⦄, Copying cap Q (CopyRel cl ds) f0 g0 s0 f g s L E → cur < s.size →
    Atop s s0.size cur (brackets E).1 → Yields (Dft.next hs) st0 E st →
    (∃ x d tr' st' f' g' s' E', Forest.cloneNextNode cap cl src fuel cur tr f = .ok (some x, s.size, tr') f' ∧ s'.size = s.size + 1 ∧
      Copying cap Q (CopyRel cl ds) f0 g0 s0 f' g' s' (L ++ [(x, d)]) (E ++ E') ∧ Atop s' s0.size s.size (brackets (E ++ E')).1 ∧ St tr' st' ∧
      Yields (Dft.next hs) st0 (E ++ E') st') ∨
    (∃ tr' st1 st' E' z, Forest.cloneNextNode cap cl src fuel cur tr f = .ok (none, s0.size, tr') f ∧ Copying cap Q (CopyRel cl ds) f0 g0 s0 f g s L (E ++ E') ∧
      Yields (Dft.next hs) st0 (E ++ E') st1 ∧ Dft.next hs st1 = .ok (some (.cls z), st') ∧ (brackets (E ++ E' ++ [.cls z])).1 = [] ∧ St tr' st') ∨
    ∃ msg f' g' st' E', Forest.cloneNextNode cap cl src fuel cur tr f = .fail (.panic msg) f' ∧ Copying cap Q (CopyRel cl ds) f0 g0 s0 f' g' s L (E ++ E') ∧
      Yields (Dft.next hs) st0 (E ++ E') st' ∧ Stuck cap cl hs ds s.size st' ∧ (brackets (E ++ E')).1 ≠ []
  | 0, cur, tr, _, _, hf => by omega
  | fuel + 1, cur, tr, st, h1, hf => by
    intro hst f g s L E h h2 ha hy
    have hne : (brackets (E ++ [])).1 ≠ [] := fun e => by
      rw [List.append_nil] at e
      have := ha.1
      rw [e] at this; cases this
    unfold Forest.cloneNextNode
    simp only [M.run_bind, M.read]
    cases hn : src.next f tr with
    | error e =>
      obtain ⟨m, rfl⟩ := not_hung (hr.halts f tr) hn
      exact .inr (.inr ⟨m, f, g, st, [], rfl, by rwa [List.append_nil], by rwa [List.append_nil], .inl (hr.stops f tr st _ (hfine h) hst hn), hne⟩)
    | ok q =>
      obtain ⟨ev, tr'⟩ := q
      obtain ⟨st', hn', hst'⟩ := hr.step f tr st ev tr' (hfine h) hst hn
      dsimp only
      cases ev with
      | none => exact .inr (.inr ⟨_, f, g, st, [], rfl, by rwa [List.append_nil], by rwa [List.append_nil], .inr (.inl ⟨st', hn'⟩), hne⟩)
      | some ev =>
        cases ev with
        | opn x =>
          cases hd : Forest.clonedData cl (src.data f) x with
          | error e =>
            obtain ⟨m, rfl⟩ := not_hung (Halts.clonedData _ _) hd
            exact .inr (.inr ⟨m, f, g, st, [], by simp only [M.run_bind, M.read, hd], by rwa [List.append_nil], by rwa [List.append_nil],
              .inr (.inr ⟨x, st', hn', .inr fun d hd' => clonedData_err hd d (by rw [hr.data f tr st x tr' (hfine h) hst hn]; exact hd')⟩), hne⟩)
          | ok d =>
            simp only [M.run_bind, M.read, hd]
            have hd' := clonedData_inv hd
            rw [hr.data f tr st x tr' (hfine h) hst hn] at hd'
            rcases h.child h1 h2 ha hd' with ⟨f', g', s', e, hs, h', ha'⟩ | ⟨e, hful⟩
            · exact .inl ⟨x, d, tr', st', f', g', s', [.opn x], by rw [e]; rfl, hs, h', ha', hst', hy.snoc hn'⟩
            · exact .inr (.inr ⟨_, f, g, st, [], by rw [e]; rfl, by rwa [List.append_nil], by rwa [List.append_nil],
                .inr (.inr ⟨x, st', hn', .inl hful⟩), hne⟩)
        | cls x =>
          have hal := h.one cur h1 h2
          have hnb : f.hier.neighbors cur = some (s.link cur) := by
            rw [h.same.links cur (h.inQ cur h1 h2), models_neighbors h.grown.models, hal]; rfl
          have hlive := nbr_live hnb
          simp only [M.run_bind, Forest.onHier, M.zoom, Hier.nbrOf, M.read, hnb, expect_some, Neighbors.getParent, hlive, Bool.not_true,
            Bool.false_eq_true, if_false]
          cases hp : (s.link cur).parent with
          | none =>
            have hcur : cur = s0.size := (h.tops cur h1 h2).1 hp
            exact .inr (.inl ⟨tr', st, st', [], x, by rw [← hcur]; rfl, by rwa [List.append_nil], by rwa [List.append_nil], hn', by rw [List.append_nil]; exact closeLast x ha hp, hst'⟩)
          | some p =>
            have hp' : s.parent cur = some p := hp
            obtain ⟨h3, h4⟩ := h.low cur p h1 hp'
            obtain ⟨h5, h6⟩ := h.close (x := x) ha hp'
            rcases next hr hfine fuel p tr' st' h3 (by omega) hst' h5 (by omega) h6 (hy.snoc hn') with
              ⟨x', d, tr2, st2, f', g', s', E', k⟩ | ⟨tr2, st1, st2, E', z, k⟩ | ⟨msg, f', g', st2, E', k⟩
            · refine .inl ⟨x', d, tr2, st2, f', g', s', .cls x :: E', ?_⟩
              simpa using k
            · refine .inr (.inl ⟨tr2, st1, st2, .cls x :: E', z, ?_⟩)
              simpa using k
            · refine .inr (.inr ⟨msg, f', g', st2, .cls x :: E', ?_⟩)
              simpa using k

end Copying

/-- Pairs of nodes and their copies, in the order of the calls of the callback. -/
def callsOf (n : Nat) (L : List (Nat × T)) : List (Nat × Nat) := (L.map Prod.fst).zip (List.range' n L.length)

theorem callsOf_snoc (n : Nat) (L : List (Nat × T)) (q : Nat × T) : callsOf n (L ++ [q]) = callsOf n L ++ [(q.1, n + L.length)] := by
  unfold callsOf
  rw [List.length_append, List.length_singleton, List.range'_concat, List.map_append, List.zip_append (by simp)]
  simp

theorem feed_snoc {ι : Type} (hook : S → ι → Except S S) {σ σ' : S} {l : List ι} {i : ι} (h : feed hook σ l = (σ', none)) :
    (∀ σ'', hook σ' i = .ok σ'' → feed hook σ (l ++ [i]) = (σ'', none)) ∧
    (∀ σ'', hook σ' i = .error σ'' → (feed hook σ (l ++ [i])).1 = σ'' ∧ (feed hook σ (l ++ [i])).2 ≠ none) := by
  refine ⟨fun σ'' e => ?_, fun σ'' e => ?_⟩ <;> rw [feed_append, h] <;> simp [feed, e]

theorem Copying.loop (hr : SrcRel cl src hs ds Fine St) {st0 : Dft.St}
    (hfine : ∀ ⦃f g : Forest T⦄ ⦃s : Shape⦄ ⦃L : List (Nat × T)⦄ ⦃E : List (Ev Nat)⦄, Copying cap Q (CopyRel cl ds) f0 g0 s0 f g s L E → Fine f)
    (hook : Forest.MapHook S) (c : S) {I : Nat} (hI : cap < I) :
    ∀ (fuel cur : Nat) (tr : τ) (st : Dft.St), s0.size ≤ cur → St tr st →
    ∀ ⦃f g : Forest T⦄ ⦃s : Shape⦄ ⦃L : List (Nat × T)⦄ ⦃E : List (Ev Nat)⦄ ⦃σ : S⦄, Copying cap Q (CopyRel cl ds) f0 g0 s0 f g s L E → cur < s.size → cap - s.size < fuel →
    Atop s s0.size cur (brackets E).1 → Yields (Dft.next hs) st0 E st → feed (pairHook hook) c (callsOf s0.size L) = (σ, none) →
    ∃ f' g' s' L' σ' E' st', Copying cap Q (CopyRel cl ds) f0 g0 s0 f' g' s' L' E' ∧ (∃ K, L' = L ++ K) ∧ (∃ K, E' = E ++ K) ∧
      (feed (pairHook hook) c (callsOf s0.size L')).1 = σ' ∧ Yields (Dft.next hs) st0 E' st' ∧
      ((∃ tr' st2 z, Forest.cloneLoop cap cl src hook I fuel cur tr (f, σ) = .ok (s0.size, tr') (f', σ') ∧
          Dft.next hs st' = .ok (some (.cls z), st2) ∧ (brackets (E' ++ [.cls z])).1 = [] ∧ St tr' st2 ∧
          (feed (pairHook hook) c (callsOf s0.size L')).2 = none) ∨
        ∃ msg, Forest.cloneLoop cap cl src hook I fuel cur tr (f, σ) = .fail (.panic msg) (f', σ') ∧
          ((feed (pairHook hook) c (callsOf s0.size L')).2 ≠ none ∨ ((brackets E').1 ≠ [] ∧ Stuck cap cl hs ds s'.size st')))
  | 0, _, _, _, _ => by intro _ f g s L E σ _ _ hf; omega
  | fuel + 1, cur, tr, st, h1 => by
    intro hst f g s L E σ h h2 hf ha hy hfeed
    unfold Forest.cloneLoop
    have hs := h.fits
    rcases Copying.next hr hfine I cur tr st h1 (by omega) hst h h2 ha hy with
      ⟨x, d, tr', st', f', g', s', E1, e, hsz, h', ha', hst', hy'⟩ | ⟨tr', st1, st', E1, z, e, h', hy', hn, hz, hst'⟩ | ⟨msg, f', g', st', E1, e, h', hy', hsk, hne⟩
    · simp only [M.run_bind, Forest.onForest, M.zoom, e]
      have hcalls := callsOf_snoc s0.size L (x, d)
      have hs0 := h.len
      rw [← hs0] at hcalls
      unfold Forest.callMap
      cases hh : hook σ x s.size with
      | error σ' =>
        refine ⟨f', g', s', _, σ', _, st', h', ⟨_, rfl⟩, ⟨E1, rfl⟩, ?_, hy', .inr ⟨"add_mapping panicked", by simp only [hh], .inl ?_⟩⟩
        · rw [hcalls]
          exact ((feed_snoc (pairHook hook) (i := (x, s.size)) hfeed).2 σ' hh).1
        · rw [hcalls]
          exact ((feed_snoc (pairHook hook) (i := (x, s.size)) hfeed).2 σ' hh).2
      | ok σ' =>
        simp only [hh]
        have hfit := h'.fits
        have hf' := (feed_snoc (pairHook hook) (i := (x, s.size)) hfeed).1 σ' hh
        rw [← hcalls] at hf'
        have hsz0 := h.grown.size
        obtain ⟨f2, g2, s2, L2, σ2, E2, st2, k1, ⟨K, k2⟩, ⟨K', k2'⟩, k3, k4⟩ :=
          Copying.loop hr hfine hook c hI fuel s.size tr' st' hsz0 hst' h' (by omega) (by omega) ha' hy' hf'
        exact ⟨f2, g2, s2, L2, σ2, E2, st2, k1, ⟨(x, d) :: K, by rw [k2, List.append_assoc]; rfl⟩, ⟨E1 ++ K', by rw [k2', List.append_assoc]⟩, k3, k4⟩
    · simp only [M.run_bind, Forest.onForest, M.zoom, e]
      exact ⟨f, g, s, L, σ, _, st1, h', ⟨[], by simp⟩, ⟨E1, rfl⟩, by rw [hfeed], hy', .inl ⟨tr', st', z, rfl, hn, hz, hst', by rw [hfeed]⟩⟩
    · simp only [M.run_bind, Forest.onForest, M.zoom, e]
      exact ⟨f', g', s, L, σ, _, st', h', ⟨[], by simp⟩, ⟨E1, rfl⟩, by rw [hfeed], hy', .inr ⟨msg, rfl, .inr ⟨hne, hsk⟩⟩⟩

/-- The start of a copy. -/
theorem Copying.start (hs : SameIn cap Q f g) (hm : Models g s) (d : T) (x : Nat) (hd : R x d) :
    (∃ f' g' s', Forest.createRoot cap d f = .ok s.size f' ∧ s'.size = s.size + 1 ∧ Copying cap Q R f g s f' g' s' [(x, d)] [.opn x] ∧
      Atop s' s.size s.size (brackets [.opn x]).1) ∨
    (cap ≤ s.size ∧ Forest.createRoot cap d f = .fail overflow f) := by
  have hlen : f.hier.nbrs.length = s.size := by rw [hs.size, hm.repr.1]
  by_cases hcap : s.size < cap
  · left
    obtain ⟨g', e, hg, _⟩ := grown_addRoot hm hcap d
    obtain ⟨f', g'', k1, k2, k3, k4⟩ := Forest.createRoot_loc (T := T) (Q := Q) cap d f g hs
    rcases k4 with ⟨a, e2, e3, hq⟩ | ⟨e', e2, e3⟩
    · rw [e] at e3
      cases e3
      have hdl : f.data.length = s.size := by rw [hs.dataSize, hm.dataLen]
      have hdat : f'.data = f.data ++ [some d] := by
        have : Forest.createRoot cap d f = .ok s.size ⟨⟨f.hier.nbrs ++ [Neighbors.newRoot s.size]⟩, f.data ++ [some d]⟩ := by
          unfold Forest.createRoot
          simp [Forest.onHier, M.zoom, Hier.createRoot, Hier.fromUsize, hlen, hcap, M.read, hdl, Forest.pushData]
        rw [this] at e2
        cases e2
        rfl
      have hsz : s.addRoot.size = s.size + 1 := rfl
      have hpar : ∀ y, s.size ≤ y → s.addRoot.parent y = none := fun y hy => by
        show s.parent y = none
        cases hp : s.parent y with
        | none => rfl
        | some p => have := hm.valid.alive_lt y (hm.valid.parent_alive y p hp).1; omega
      have hkids : ∀ y, s.size ≤ y → s.addRoot.kids y = [] := fun y hy => by
        show s.kids y = []
        cases hk : s.kids y with
        | nil => rfl
        | cons a l =>
          have hmem : a ∈ s.kids y := by rw [hk]; simp
          have := hm.valid.alive_lt y (hm.valid.parent_alive a y (hm.valid.kid_parent hmem)).2
          omega
      have hb : brackets [.opn x] = ([0], [none]) := rfl
      refine ⟨f', g', s.addRoot, e2, rfl, ⟨hs, hm, k1, k2, hg, fun y hy hy' => ?_, fun y p hy hp => ?_, fun y hy hy' => ?_, fun y hy hy' => ?_, fun y hy => ?_, hcap, by simp [hsz], by simp [hdat], ?_, rfl, rfl, ?_⟩, ?_⟩
      · have : y = s.size := by omega
        exact this ▸ hq
      · rw [hpar y hy] at hp; cases hp
      · have : y = s.size := by omega
        subst this
        exact s.addRoot_alive_self
      · exact ⟨fun _ => by omega, fun _ => hpar y hy⟩
      · rw [hkids y hy]; exact List.Pairwise.nil
      · intro q hq
        simp only [List.mem_singleton] at hq
        subst hq
        exact hd
      · intro k hk
        simp only [List.length_singleton, Nat.lt_one_iff] at hk
        subst hk
        rw [hpar _ (by omega), hb]; rfl
      · rw [hb]
        exact ⟨rfl, by rw [hsz]; omega, hpar _ (by omega), trivial⟩
    · rw [e] at e3; cases e3
  · refine .inr ⟨by omega, ?_⟩
    unfold Forest.createRoot
    simp [Forest.onHier, M.zoom, Hier.createRoot, Hier.fromUsize, hlen, hcap, overflow]

theorem cloneFuel_gt (cap n : Nat) : cap < Forest.cloneFuel cap n := by
  unfold Forest.cloneFuel; nlinarith

/-- The node of an event, if any, is below `N`. -/
def Below (N : Nat) (o : Option (Ev Nat)) : Prop := ∀ e, o = some e → e.node < N
theorem Below.some {N : Nat} {e : Ev Nat} (h : e.node < N) : Below N (some e) := fun _ he => by cases he; exact h
theorem Below.none {N : Nat} : Below N none := fun _ he => by cases he

/-- The old nodes are as in `h0` and `d0`. -/
def OldAs (N : Nat) (h0 : Hier) (d0 : List (Option T)) (f : Forest T) : Prop :=
  ∀ y, y < N → f.hier.neighbors y = h0.neighbors y ∧ f.data[y]? = d0[y]?

/-- The states of the two traversers correspond. -/
def SafeAs (N : Nat) (tr : Safe.St) (st : Dft.St) : Prop :=
  st = tr.next.map (fun e => (e, .cls tr.root)) ∧ tr.root < N ∧ Below N tr.next

theorem safe_step {N : Nat} {h0 h : Hier} (hb : ∀ x nb, h0.neighbors x = some nb → ∀ y, nb.mentions y → y < N)
    (hh : ∀ y, y < N → h.neighbors y = h0.neighbors y) {tr tr' : Safe.St} {st : Dft.St} {o : Option (Ev Nat)} (hst : SafeAs N tr st)
    (hn : Safe.next h tr = .ok (o, tr')) : ∃ st', Dft.next h0 st = .ok (o, st') ∧ SafeAs N tr' st' ∧ Below N o := by
  obtain ⟨nx, root⟩ := tr
  obtain ⟨rfl, hr, hN⟩ := hst
  cases nx with
  | none =>
    unfold Safe.next at hn
    cases hn
    exact ⟨none, rfl, ⟨rfl, hr, hN⟩, hN⟩
  | some e =>
    unfold Safe.next Safe.nextOfNext at hn
    simp only [Option.map_some]
    by_cases he : e = .cls root
    · subst he
      simp only [if_true] at hn
      cases hn
      exact ⟨none, by simp [Dft.next, deNext], ⟨rfl, hr, .none⟩, hN⟩
    · simp only [if_neg he] at hn
      cases e with
      | opn id =>
        have hid : id < N := hN _ rfl
        dsimp only at hn
        rw [hh id hid] at hn
        cases hnb : h0.neighbors id with
        | none => rw [hnb] at hn; cases hn
        | some nb =>
          have hl := nbr_live hnb
          simp only [hnb, expect_some, Neighbors.firstChild, hl, Bool.not_true, Bool.false_eq_true, if_false] at hn
          simp only [Dft.next, deNext, he, if_false, Dft.stepFwd, travNbr, hnb, expect_some, Neighbors.firstChild, hl, Bool.not_true, Bool.false_eq_true]
          cases hc : nb.first with
          | none => rw [hc] at hn; cases hn; exact ⟨_, rfl, ⟨rfl, hr, .some hid⟩, hN⟩
          | some c => rw [hc] at hn; cases hn; exact ⟨_, rfl, ⟨rfl, hr, .some (hb id nb hnb c (.inr (.inr (.inr hc))))⟩, hN⟩
      | cls id =>
        have hid : id < N := hN _ rfl
        dsimp only at hn
        rw [hh id hid] at hn
        cases hnb : h0.neighbors id with
        | none => rw [hnb] at hn; cases hn
        | some nb =>
          have hl := nbr_live hnb
          simp only [hnb, expect_some, Neighbors.nextSibling, Neighbors.getParent, hl, Bool.not_true, Bool.false_eq_true, if_false] at hn
          simp only [Dft.next, deNext, he, if_false, Dft.stepFwd, travNbr, hnb, expect_some, Neighbors.nextSibling, Neighbors.getParent, hl, Bool.not_true, Bool.false_eq_true]
          cases hc : nb.next with
          | some c => rw [hc] at hn; cases hn; exact ⟨_, rfl, ⟨rfl, hr, .some (hb id nb hnb c (.inr (.inr (.inl hc))))⟩, hN⟩
          | none =>
            rw [hc] at hn
            dsimp only at hn ⊢
            by_cases hid2 : id = root
            · exact absurd (hid2 ▸ rfl) he
            · rw [if_neg hid2] at hn
              cases hp : nb.parent with
              | none => rw [hp] at hn; cases hn
              | some p => rw [hp] at hn; cases hn; exact ⟨_, rfl, ⟨rfl, hr, .some (hb id nb hnb p (.inl hp))⟩, hN⟩

theorem safe_stop {N : Nat} {h0 h : Hier} (hh : ∀ y, y < N → h.neighbors y = h0.neighbors y) {tr : Safe.St} {st : Dft.St} {e : Fail}
    (hst : SafeAs N tr st) (hn : Safe.next h tr = .error e) : ∃ e', Dft.next h0 st = .error e' := by
  obtain ⟨nx, root⟩ := tr
  obtain ⟨rfl, hr, hN⟩ := hst
  cases nx with
  | none => unfold Safe.next at hn; cases hn
  | some e =>
    unfold Safe.next Safe.nextOfNext at hn
    simp only [Option.map_some]
    by_cases he : e = .cls root
    · subst he
      simp only [if_true] at hn
      cases hn
    · simp only [if_neg he] at hn
      cases e with
      | opn id =>
        have hid : id < N := hN _ rfl
        dsimp only at hn
        rw [hh id hid] at hn
        cases hnb : h0.neighbors id with
        | none => exact ⟨_, by simp only [Dft.next, deNext, he, if_false, Dft.stepFwd, travNbr, hnb, expect]; rfl⟩
        | some nb =>
          have hl := nbr_live hnb
          simp only [hnb, expect_some, Neighbors.firstChild, hl, Bool.not_true, Bool.false_eq_true, if_false] at hn
          cases hc : nb.first <;> rw [hc] at hn <;> cases hn
      | cls id =>
        have hid : id < N := hN _ rfl
        dsimp only at hn
        rw [hh id hid] at hn
        cases hnb : h0.neighbors id with
        | none => exact ⟨_, by simp only [Dft.next, deNext, he, if_false, Dft.stepFwd, travNbr, hnb, expect]; rfl⟩
        | some nb =>
          have hl := nbr_live hnb
          simp only [hnb, expect_some, Neighbors.nextSibling, Neighbors.getParent, hl, Bool.not_true, Bool.false_eq_true, if_false] at hn
          simp only [Dft.next, deNext, he, if_false, Dft.stepFwd, travNbr, hnb, expect_some, Neighbors.nextSibling, Neighbors.getParent, hl, Bool.not_true, Bool.false_eq_true]
          cases hc : nb.next with
          | some c => rw [hc] at hn; cases hn
          | none =>
            rw [hc] at hn
            dsimp only at hn ⊢
            by_cases hid2 : id = root
            · exact absurd (hid2 ▸ rfl) he
            · rw [if_neg hid2] at hn
              cases hp : nb.parent with
              | none => exact ⟨_, by simp only [expect]; rfl⟩
              | some p => rw [hp] at hn; cases hn

theorem srcLocal {F : Forest T} (hb : Bounded F) :
    SrcRel cl (Forest.localSrc (T := T)) F.hier F.data (OldAs F.hier.nbrs.length F.hier F.data) (SafeAs F.hier.nbrs.length) := by
  refine ⟨fun f tr st o tr' hf hst hn => ?_, fun f tr st x tr' hf hst hn => ?_, fun _ st => Halts.safeNext st,
    fun f tr st e hf hst hn => safe_stop (fun y hy => (hf y hy).1) hst hn⟩
  · obtain ⟨st', h1, h2, _⟩ := safe_step hb (fun y hy => (hf y hy).1) hst hn
    exact ⟨st', h1, h2⟩
  · obtain ⟨st', h1, h2, h3⟩ := safe_step hb (fun y hy => (hf y hy).1) hst hn
    exact (hf x (h3 _ rfl)).2

theorem srcForeign (fsrc : Forest T) : SrcRel cl (Forest.foreignSrc fsrc) fsrc.hier fsrc.data (fun _ => True) Eq := by
  refine ⟨fun f tr st o tr' _ hst hn => ?_, fun f tr st x tr' _ hst hn => rfl, fun _ st => Halts.dftRaw st,
    fun f tr st e _ hst hn => ⟨e, hst ▸ hn⟩⟩
  subst hst
  exact ⟨tr', hn, rfl⟩

theorem Copying.oldAs (h : Copying cap Q R f0 g0 s0 f g s L E) : OldAs f0.hier.nbrs.length f0.hier f0.data f := by
  intro y hy
  rw [h.init.size, h.initM.repr.1] at hy
  exact ⟨h.oldLinks hy, h.oldData hy⟩

/-- What a copying call does: nothing, or it makes a tree. -/
def CopyResult (cap : Nat) (strict : Bool) (Q : Nat → Prop) (cl : T → Option T) (hs : Hier) (ds : List (Option T)) (hook : Forest.MapHook S) (x : Nat)
    (f g : Forest T) (s : Shape) (c : S) (r : Res (Forest T × S) Nat) : Prop :=
  ((∃ msg, r = .fail (.panic msg) (f, c)) ∧ (cap ≤ s.size ∨ ∀ d, ds[x]? = some (some d) → cl d = none)) ∨
  ∃ f' g' s' L E st σ', Copying cap Q (CopyRel cl ds) f g s f' g' s' L E ∧ Yields (Dft.next hs) (some (.opn x, .cls x)) E st ∧ E.head? = some (.opn x) ∧
    (feed (pairHook hook) c (callsOf s.size L)).1 = σ' ∧
    ((r = .ok s.size (f', σ') ∧ (brackets E).1 = [] ∧ (strict = true → ∃ st', Dft.next hs st = .ok (none, st')) ∧
        (feed (pairHook hook) c (callsOf s.size L)).2 = none) ∨
      ((∃ msg, r = .fail (.panic msg) (f', σ')) ∧ ((feed (pairHook hook) c (callsOf s.size L)).2 ≠ none ∨
        ((brackets E).1 ≠ [] ∧ Stuck cap cl hs ds s'.size st) ∨ (strict = true ∧ (brackets E).1 = [] ∧ ∀ st', Dft.next hs st ≠ .ok (none, st')))))

/-- The last closing can be added. -/
theorem Copying.closed (h : Copying cap Q R f0 g0 s0 f g s L E) (z : Nat) : Copying cap Q R f0 g0 s0 f g s L (E ++ [.cls z]) := by
  have hb : brackets (E ++ [.cls z]) = ((brackets E).1.tail, (brackets E).2) := brackets_snoc _ _
  refine ⟨h.init, h.initM, h.same, h.out, h.grown, h.inQ, h.low, h.one, h.tops, h.order, h.fits, h.len, h.data, h.rel, ?_, ?_, ?_⟩
  · rw [openedBy_snoc_cls]; exact h.srcs
  · rw [hb]; exact h.count
  · rw [hb]; exact h.parents

theorem dft_first {h : Hier} {x : Nat} {nb : Neighbors} (hn : h.neighbors x = some nb) :
    ∃ st, Dft.next h (some (.opn x, .cls x)) = .ok (some (.opn x), st) := by
  have hl := nbr_live hn
  simp only [Dft.next, deNext, reduceCtorEq, if_false, Dft.stepFwd, travNbr, hn, expect_some, Neighbors.firstChild, hl, Bool.not_true, Bool.false_eq_true]
  cases nb.first with
  | none => exact ⟨_, rfl⟩
  | some c => exact ⟨_, rfl⟩

theorem alive_of {h : Hier} {x : Nat} {nb : Neighbors} (hn : h.neighbors x = some nb) : h.isAlive x = true := by
  unfold Hier.neighbors at hn
  unfold Hier.isAlive
  cases e : h.nbrs[x]? with
  | none => rw [e] at hn; cases hn
  | some v =>
    rw [e] at hn
    simp only [Option.filter] at hn
    split at hn
    · assumption
    · cases hn

theorem copy_local (hb : Bounded f) (hc : Coherent f) (hs : SameIn cap Q f g) (hm : Models g s) (hook : Forest.MapHook S) (c : S) (x : Nat) :
    CopyResult cap false Q cl f.hier f.data hook x f g s c (Forest.cloneLocalTreeWithIdMapping cap cl hook x (f, c)) := by
  have hdl : ∀ d, f.data[x]? = some (some d) → f.getData x = some d := fun d hd => by unfold Forest.getData; rw [hd]; rfl
  unfold Forest.cloneLocalTreeWithIdMapping
  cases h0 : f.getData x with
  | none => exact .inl ⟨⟨_, by simp only [M.run_bind, M.read, h0, expect]; rfl⟩, .inr fun d hd => by rw [hdl d hd] at h0; cases h0⟩
  | some d0 =>
    cases h1 : cl d0 with
    | none =>
      exact .inl ⟨⟨_, by simp only [M.run_bind, M.read, h0, expect, h1]; rfl⟩, .inr fun d hd => by rw [hdl d hd] at h0; cases h0; exact h1⟩
    | some d =>
      have hal : f.isAlive x = true := by rw [isAlive_getData, h0]; rfl
      have hnb := hc.neighbors_live hal
      obtain ⟨st1, hst1⟩ := dft_first hnb
      have hxN := nbr_lt hnb
      simp only [M.run_bind, M.read, h0, expect_some, h1, Forest.onForest, M.zoom]
      rcases Copying.start (R := CopyRel cl f.data) hs hm d x ⟨d0, getData_list h0, h1⟩ with ⟨f1, g1, s1, e1, hs1, k1, ka⟩ | ⟨hful, e1⟩
      · rw [e1]
        dsimp only
        unfold Forest.callMap
        have hc1 : callsOf s.size [(x, d)] = [(x, s.size)] := rfl
        have hy1 : Yields (Dft.next f.hier) (some (.opn x, .cls x)) [.opn x] st1 := ⟨st1, hst1, rfl⟩
        cases hh : hook c x s.size with
        | error σ =>
          simp only [hh]
          exact .inr ⟨f1, g1, s1, _, _, st1, σ, k1, hy1, rfl, by rw [hc1]; simp [feed, pairHook, hh],
            .inr ⟨⟨_, rfl⟩, .inl (by rw [hc1]; simp [feed, pairHook, hh])⟩⟩
        | ok σ =>
          simp only [hh]
          have hfeed : feed (pairHook hook) c (callsOf s.size [(x, d)]) = (σ, none) := by rw [hc1]; simp [feed, pairHook, hh]
          have hnb1 : f1.hier.neighbors x = some (f.hier.get x) := by rw [(k1.oldAs x hxN).1]; exact hnb
          have h2 : Safe.new x f1.hier = .ok ⟨some (.opn x), x⟩ := by unfold Safe.new; rw [alive_of hnb1]; rfl
          rw [h2]
          dsimp only
          have htr : SafeAs f.hier.nbrs.length ⟨some (.opn x), x⟩ (some (.opn x, .cls x)) := ⟨rfl, hxN, .some hxN⟩
          cases h3 : Safe.next f1.hier ⟨some (.opn x), x⟩ with
          | error e =>
            obtain ⟨e', he⟩ := safe_stop (fun y hy => (k1.oldAs y hy).1) htr h3
            rw [hst1] at he; cases he
          | ok q =>
            obtain ⟨ev, tr'⟩ := q
            dsimp only
            have := k1.fits
            obtain ⟨st1', h4, h5, _⟩ := safe_step hb (fun y hy => (k1.oldAs y hy).1) htr h3
            rw [hst1] at h4
            cases h4
            obtain ⟨f2, g2, s2, L2, σ2, E2, st2, m1, ⟨K, m2⟩, ⟨K', m2'⟩, m3, m6, m4⟩ := Copying.loop (st0 := some (.opn x, .cls x)) (srcLocal hb)
              (fun f g s L E h => h.oldAs) hook c (cloneFuel_gt cap cap) (cap + 1) s.size tr' st1 (Nat.le_refl _) h5 k1 (by omega) (by omega) ka hy1 hfeed
            subst m2'
            rcases m4 with ⟨tr2, st3, z, m4, m5, m7, _, m8⟩ | ⟨msg, m4, m9⟩
            · rw [m4]
              exact .inr ⟨f2, g2, s2, _, _, st3, σ2, m1.closed z, m6.snoc m5, rfl, m3, .inl ⟨by simp, m7, nofun, m8⟩⟩
            · rw [m4]
              exact .inr ⟨f2, g2, s2, _, _, st2, σ2, m1, m6, rfl, m3, .inr ⟨⟨_, rfl⟩, m9.elim .inl fun h => .inr (.inl h)⟩⟩
      · rw [e1]; exact .inl ⟨⟨_, rfl⟩, .inl hful⟩

theorem copy_foreign {fsrc : Forest T} (hc : Coherent fsrc) (hs : SameIn cap Q f g) (hm : Models g s) (hook : Forest.MapHook S) (c : S) (x : Nat) :
    CopyResult cap true Q cl fsrc.hier fsrc.data hook x f g s c (Forest.cloneForeignTreeWithIdMapping cap cl hook fsrc x (f, c)) := by
  have hdl : ∀ d, fsrc.data[x]? = some (some d) → fsrc.getData x = some d := fun d hd => by unfold Forest.getData; rw [hd]; rfl
  unfold Forest.cloneForeignTreeWithIdMapping
  cases h0 : fsrc.getData x with
  | none => exact .inl ⟨⟨_, by simp only [M.run_bind, M.read, expect]; rfl⟩, .inr fun d hd => by rw [hdl d hd] at h0; cases h0⟩
  | some d0 =>
    cases h1 : cl d0 with
    | none =>
      exact .inl ⟨⟨_, by simp only [M.run_bind, M.read, expect, h1]; rfl⟩, .inr fun d hd => by rw [hdl d hd] at h0; cases h0; exact h1⟩
    | some d =>
      have hal : fsrc.isAlive x = true := by rw [isAlive_getData, h0]; rfl
      have hnb := hc.neighbors_live hal
      obtain ⟨st1, hst1⟩ := dft_first hnb
      simp only [M.run_bind, M.read, expect_some, h1, Forest.onForest, M.zoom]
      rcases Copying.start (R := CopyRel cl fsrc.data) hs hm d x ⟨d0, getData_list h0, h1⟩ with ⟨f1, g1, s1, e1, hs1, k1, ka⟩ | ⟨hful, e1⟩
      · rw [e1]
        dsimp only
        unfold Forest.callMap
        have hc1 : callsOf s.size [(x, d)] = [(x, s.size)] := rfl
        have hy1 : Yields (Dft.next fsrc.hier) (some (.opn x, .cls x)) [.opn x] st1 := ⟨st1, hst1, rfl⟩
        cases hh : hook c x s.size with
        | error σ =>
          simp only [hh]
          exact .inr ⟨f1, g1, s1, _, _, st1, σ, k1, hy1, rfl, by rw [hc1]; simp [feed, pairHook, hh],
            .inr ⟨⟨_, rfl⟩, .inl (by rw [hc1]; simp [feed, pairHook, hh])⟩⟩
        | ok σ =>
          simp only [hh]
          have hfeed : feed (pairHook hook) c (callsOf s.size [(x, d)]) = (σ, none) := by rw [hc1]; simp [feed, pairHook, hh]
          have h2 : Dft.withToplevel x fsrc.hier = .ok (some (.opn x, .cls x)) := by unfold Dft.withToplevel; rw [alive_of hnb]; rfl
          rw [h2]
          dsimp only
          rw [hst1]
          dsimp only
          have := k1.fits
          obtain ⟨f2, g2, s2, L2, σ2, E2, st2, m1, ⟨K, m2⟩, ⟨K', m2'⟩, m3, m6, m4⟩ := Copying.loop (st0 := some (.opn x, .cls x)) (srcForeign fsrc)
            (fun f g s L E h => trivial) hook c (cloneFuel_gt cap fsrc.hier.nbrs.length) (cap + 1) s.size st1 st1 (Nat.le_refl _) rfl k1 (by omega) (by omega) ka hy1 hfeed
          subst m2'
          rcases m4 with ⟨tr2, st3, z, m4, m5, m7, m10, m8⟩ | ⟨msg, m4, m9⟩
          · rw [m4]
            subst m10
            simp only [ne_eq, not_true_eq_false, if_false, M.run_bind, M.read]
            have fin : ∀ (r : Res (Forest T × S) Nat), (∃ msg, r = .fail (.panic msg) (f2, σ2)) → (∀ st', Dft.next fsrc.hier tr2 ≠ .ok (none, st')) →
                CopyResult cap true Q cl fsrc.hier fsrc.data hook x f g s c r := fun r hr hn =>
              .inr ⟨f2, g2, s2, _, _, tr2, σ2, m1.closed z, m6.snoc m5, rfl, m3, .inr ⟨hr, .inr (.inr ⟨rfl, m7, hn⟩)⟩⟩
            cases h4 : Dft.next fsrc.hier tr2 with
            | error e =>
              obtain ⟨m, rfl⟩ := not_hung (Halts.dftRaw tr2) h4
              exact fin _ ⟨m, rfl⟩ fun st' h => by rw [h4] at h; cases h
            | ok q2 =>
              obtain ⟨last, tr3⟩ := q2
              cases last with
              | some e => exact fin _ ⟨_, rfl⟩ fun st' h => by rw [h4] at h; cases h
              | none => exact .inr ⟨f2, g2, s2, _, _, tr2, σ2, m1.closed z, m6.snoc m5, rfl, m3, .inl ⟨rfl, m7, fun _ => ⟨tr3, h4⟩, m8⟩⟩
          · rw [m4]
            exact .inr ⟨f2, g2, s2, _, _, st2, σ2, m1, m6, rfl, m3, .inr ⟨⟨_, rfl⟩, m9.elim .inl fun h => .inr (.inl h)⟩⟩
      · rw [e1]; exact .inl ⟨⟨_, rfl⟩, .inl hful⟩

/-! ### Any forest at all -/

/-- A forest whose nodes have all been removed. -/
def Shape.gone (n : Nat) : Shape := ⟨n, fun _ => false, fun _ => none, fun _ => []⟩

theorem gone_models (hc : Coherent f) : Models (f.without (· < f.issued)) (Shape.gone f.issued) := by
  have hlen := hc.len
  refine ⟨⟨nofun, nofun, fun x p => by simp [Shape.gone], fun _ => List.nodup_nil, fun _ => .root rfl⟩, ⟨?_, fun x hx => ?_⟩, ?_, fun x => ?_⟩
  · rw [without_len, ← hlen]; rfl
  · have hx' : x < f.issued := hx
    have hx2 : x < f.hier.nbrs.length := by rw [← hlen]; exact hx'
    unfold Forest.without
    simp [List.getElem?_range hx2, hx', Shape.entry, Shape.gone]
  · rw [without_dlen]; rfl
  · rw [getData_without]
    split
    · rfl
    · rename_i h
      have : f.getData x = none := by
        unfold Forest.getData; rw [List.getElem?_eq_none (by unfold Forest.issued at h; omega)]; rfl
      rw [this]; rfl

theorem gone_same (hc : Coherent f) : SameIn cap (f.issued ≤ ·) f (f.without (· < f.issued)) := by
  have hlen := hc.len
  have dead : ∀ x, f.issued ≤ x → f.hier.neighbors x = none := fun x hx => by
    unfold Hier.neighbors
    rw [List.getElem?_eq_none (by unfold Forest.issued at hx; omega)]; rfl
  refine ⟨without_len.symm, without_dlen.symm, fun x hx => ?_, fun x hx => ?_, fun x hx nb hn => ?_, fun x hx _ => ?_⟩
  · rw [neighbors_without, if_neg (by simpa using hx)]
  · rw [getData_without, if_neg (by simpa using hx)]
  · rw [dead x hx] at hn; cases hn
  · show f.data.length ≤ x; omega

theorem Copying.newTree {f' g' : Forest T} {s' : Shape}
    (h : Copying cap (f.issued ≤ ·) R f (f.without (· < f.issued)) (Shape.gone f.issued) f' g' s' L E) :
    NewTree f f' E (L.map Prod.snd) s' := by
  have hg := h.grown
  have hsz : s'.size = f.issued + L.length := h.len
  have hd := hg.models.describes
  have hiss : f'.issued = f.issued + L.length := by unfold Forest.issued; rw [h.data]; simp
  have hal : ∀ y, s'.alive y = true ↔ f.issued ≤ y ∧ y < f'.issued := fun y => by
    constructor
    · intro hy
      have h1 := hg.models.valid.alive_lt y hy
      refine ⟨?_, by omega⟩
      apply Classical.byContradiction
      intro hn
      rw [hg.alive y (Nat.lt_of_not_le hn)] at hy
      cases hy
    · rintro ⟨h1, h2⟩
      exact h.one y h1 (by omega)
  have hin : ∀ y, s'.alive y = true → f.issued ≤ y := fun y hy => ((hal y).1 hy).1
  refine ⟨hg.models.valid, ?_, by simpa using hiss, fun y hy => ?_, hal, fun k hk => ?_, fun y hy => ?_, fun y => ?_, fun k hk => ?_, fun y hy => ?_, fun y hy => ?_,
    fun y hy => ?_, fun y hy => ?_, fun y hy => ?_, fun y hy => ?_⟩
  · rw [List.length_map, ← h.srcs, List.length_map]
  · refine ⟨h.oldLinks hy, ?_⟩
    unfold Forest.getData
    rw [h.oldData hy]
  · exact h.parents k (by simpa using hk)
  · obtain ⟨h1, h2⟩ := (hal y).1 hy
    exact h.tops y h1 (by omega)
  · by_cases hy : f.issued ≤ y
    · exact h.order y hy
    · rw [hg.kids y (Nat.lt_of_not_le hy)]; exact List.Pairwise.nil
  · have : k < L.length := by simpa using hk
    unfold Forest.getData Forest.issued
    rw [h.data, List.getElem?_append_right (by omega)]
    simp [this]
  · rw [Forest.isAlive_same h.same (hin y hy), hd.alive, hy]
  · rw [← hd.parent y hy]; exact (Forest.linkOf_same h.same (hin y hy) .parent).1
  · rw [← hd.next y hy]; exact (Forest.linkOf_same h.same (hin y hy) .next).1
  · rw [← hd.prev y hy]; exact (Forest.linkOf_same h.same (hin y hy) .prev).1
  · rw [← hd.first y hy]; exact (Forest.linkOf_same h.same (hin y hy) .firstChild).1
  · rw [← hd.last y hy]; exact (Forest.linkOf_same h.same (hin y hy) .lastChild).1

theorem CopyResult.any {hook : Forest.MapHook S} {c : S} {x : Nat} {fsrc : Forest T} {r : Res (Forest T × S) Nat} {b : Bool}
    (h : CopyResult cap b (f.issued ≤ ·) cl fsrc.hier fsrc.data hook x f (f.without (· < f.issued)) (Shape.gone f.issued) c r) :
    CopiesAny cap b cl hook fsrc x f c r := by
  have hget : ∀ {y : Nat} {d : T}, fsrc.getData y = some d → fsrc.data[y]? = some (some d) := fun h => getData_list h
  rcases h with ⟨h, h0⟩ | ⟨f', g', s', L, E, st, σ, h1, h2, h3, h4, h5⟩
  · exact .inl ⟨h, h0.imp id fun h d hd => h d (hget hd)⟩
  · have hcalls : callsOf (Shape.gone f.issued).size L = (openedBy E).zip (List.range' f.issued (openedBy E).length) := by
      unfold callsOf
      rw [h1.srcs, ← h1.srcs, List.length_map]; rfl
    rw [hcalls] at h4 h5
    have hsz : s'.size = f'.issued := by
      unfold Forest.issued; rw [h1.data, List.length_append, List.length_map]; exact h1.len
    have hstuck : Stuck cap cl fsrc.hier fsrc.data s'.size st → CannotGoOn cap cl fsrc f'.issued st := by
      rw [hsz]
      rintro (h | h | ⟨y, st', h, h'⟩)
      · exact .inl h
      · exact .inr (.inl h)
      · exact .inr (.inr ⟨y, st', h, h'.imp id fun h d hd => h d (hget hd)⟩)
    refine .inr ⟨f', E, st, L.map Prod.snd, s', σ, h2, h3, h1.newTree, fun i y d hy hd => ?_, h4,
      h5.imp id fun h => ⟨h.1, h.2.imp id fun h => h.imp (fun h => ⟨h.1, hstuck h.2⟩) id⟩⟩
    rw [← h1.srcs, List.getElem?_map] at hy
    rw [List.getElem?_map] at hd
    cases hq : L[i]? with
    | none => rw [hq] at hy; cases hy
    | some q =>
      rw [hq] at hy hd
      cases hy; cases hd
      obtain ⟨d0, e1, e2⟩ := h1.rel q (List.mem_of_getElem? hq)
      exact ⟨d0, by unfold Forest.getData; rw [e1]; rfl, e2⟩

end Treena
