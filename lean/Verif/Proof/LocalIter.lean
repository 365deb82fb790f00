import Verif.Proof.LocalForest
/-! Locality of the read-only public functions. -/
set_option autoImplicit false
namespace Treena
open Hier (InO InN InE InS InSh InB InQ Same Out)
variable {T : Type} {cap : Nat} {Q : Nat → Prop}
namespace Forest

theorem node_same {f g : Forest T} (h : SameIn cap Q f g) {x : Nat} (hx : Q x) : f.node x = g.node x := by
  unfold node; rw [isAlive_same h hx]

theorem emit_loc {ι σ : Type} {f g : Forest T} (h : SameIn cap Q f g) {idOf : ι → Nat} {P : σ → Prop} {r r' : R (Option ι × σ)}
    (hr : Eq2 r r' (fun q => (∀ i, q.1 = some i → Q (idOf i)) ∧ P q.2)) :
    Eq2 (f.emit idOf r) (g.emit idOf r') (fun q => P q.2) := by
  unfold emit
  lr hr with q hq
  obtain ⟨o, st⟩ := q
  cases o with
  | none => exact Eq2.ok hq.2
  | some i =>
    dsimp only
    unfold nodeAt
    rw [node_same h (hq.1 i rfl)]
    cases expect (g.node (idOf i)) "[consistency] the node must be the part of the tree" with
    | error e => exact Eq2.err
    | ok _ => exact Eq2.ok hq.2

theorem iterNew_loc {σ : Type} {f g : Forest T} (h : SameIn cap Q f g) {x : Nat} (hx : Q x) {mk : Nat → Hier → R σ} {P : σ → Prop}
    (hmk : LocR (Same cap Q) (fun h => mk x h) P) : Eq2 (f.iterNew x mk) (g.iterNew x mk) P := by
  unfold iterNew nodeOrPanic
  rw [node_same h hx]
  unfold node
  cases g.isAlive x with
  | false => exact Eq2.err
  | true => exact hmk f.hier g.hier h.same

theorem skipped_loc {ι σ : Type} {adv adv' : σ → R (Option ι × σ)} {P : σ → Prop} {r r' : R σ} (hr : Eq2 r r' P)
    (ha : ∀ st, P st → Eq2 (adv st) (adv' st) (fun q => P q.2)) : Eq2 (skipped adv r) (skipped adv' r') P := by
  unfold skipped
  lr hr with st hst
  lr (ha st hst) with q hq
  exact Eq2.ok hq

theorem drive_loc {ι σ : Type} {next next' back back' : σ → R (Option ι × σ)} {P : σ → Prop}
    (hn : ∀ st, P st → Eq2 (next st) (next' st) (fun q => P q.2))
    (hb : ∀ st, P st → Eq2 (back st) (back' st) (fun q => P q.2)) :
    ∀ (ds : List Dir) {st : σ}, P st → drive next back st ds = drive next' back' st ds
  | [], _, _ => by simp only [drive]
  | d :: ds, st, hst => by
    cases d with
    | front =>
      unfold drive
      dsimp only
      rcases Eq2.split (hn st hst) with ⟨e, e1, e2⟩ | ⟨q, e1, e2, hq⟩
      · rw [e1, e2]
      · rw [e1, e2]
        dsimp only
        rw [drive_loc hn hb ds hq]
    | back =>
      unfold drive
      dsimp only
      rcases Eq2.split (hb st hst) with ⟨e, e1, e2⟩ | ⟨q, e1, e2, hq⟩
      · rw [e1, e2]
      · rw [e1, e2]
        dsimp only
        rw [drive_loc hn hb ds hq]

theorem pull_loc {ι σ : Type} {next next' : σ → R (Option ι × σ)} {P : σ → Prop}
    (hn : ∀ st, P st → Eq2 (next st) (next' st) (fun q => P q.2)) :
    ∀ (n : Nat) {st : σ}, P st → pull next n st = pull next' n st
  | 0, _, _ => by simp only [pull]
  | n + 1, st, hst => by
    unfold pull
    rcases Eq2.split (hn st hst) with ⟨e, e1, e2⟩ | ⟨q, e1, e2, hq⟩
    · rw [e1, e2]
    · rw [e1, e2]
      dsimp only
      rw [pull_loc hn n hq]

theorem iterate_loc {ι σ : Type} {next next' back back' : σ → R (Option ι × σ)} {P : σ → Prop} {r r' : R σ}
    (hr : Eq2 r r' P) (hn : ∀ st, P st → Eq2 (next st) (next' st) (fun q => P q.2))
    (hb : ∀ st, P st → Eq2 (back st) (back' st) (fun q => P q.2)) (ds : List Dir) :
    Req.iterate next back r ds = Req.iterate next' back' r' ds := by
  unfold Req.iterate
  rcases Eq2.split hr with ⟨e, e1, e2⟩ | ⟨st, e1, e2, hst⟩
  · rw [e1, e2]
  · rw [e1, e2]; exact drive_loc hn hb ds hst

theorem iterate1_loc {ι σ : Type} {next next' : σ → R (Option ι × σ)} {P : σ → Prop} {r r' : R σ}
    (hr : Eq2 r r' P) (hn : ∀ st, P st → Eq2 (next st) (next' st) (fun q => P q.2)) (n : Nat) :
    Req.iterate1 next r n = Req.iterate1 next' r' n := by
  unfold Req.iterate1
  rcases Eq2.split hr with ⟨e, e1, e2⟩ | ⟨st, e1, e2, hst⟩
  · rw [e1, e2]
  · rw [e1, e2]; exact pull_loc hn n hst

variable {f g : Forest T}

theorem dftNext_same (h : SameIn cap Q f g) (st : Dft.St) (hst : InS (fun e : Ev Nat => Q e.node) st) :
    Eq2 (f.dftNext st) (g.dftNext st) (fun q => InS (fun e : Ev Nat => Q e.node) q.2) :=
  emit_loc h (Hier.dftNext_loc hst _ _ h.same)
theorem dftNextBack_same (h : SameIn cap Q f g) (st : Dft.St) (hst : InS (fun e : Ev Nat => Q e.node) st) :
    Eq2 (f.dftNextBack st) (g.dftNextBack st) (fun q => InS (fun e : Ev Nat => Q e.node) q.2) :=
  emit_loc h (Hier.dftNextBack_loc hst _ _ h.same)
theorem shallowNext_same (h : SameIn cap Q f g) (st : Shallow.St) (hst : InSh Q st) :
    Eq2 (f.shallowNext st) (g.shallowNext st) (fun q => InSh Q q.2) := emit_loc h (Hier.shNext_loc hst _ _ h.same)
theorem shallowNextBack_same (h : SameIn cap Q f g) (st : Shallow.St) (hst : InSh Q st) :
    Eq2 (f.shallowNextBack st) (g.shallowNextBack st) (fun q => InSh Q q.2) := emit_loc h (Hier.shNextBack_loc hst _ _ h.same)
theorem bftNext_same (um : Nat) (h : SameIn cap Q f g) (st : Bft.St) (hst : InB Q st) :
    Eq2 (f.bftNext um st) (g.bftNext um st) (fun q => InB Q q.2) := emit_loc h (Hier.bftNext_loc um hst _ _ h.same)
theorem abftNext_same (h : SameIn cap Q f g) (st : ABft.St) (hst : InQ Q st.events) :
    Eq2 (f.abftNext st) (g.abftNext st) (fun q => InQ Q q.2.events) :=
  emit_loc (P := fun st : ABft.St => InQ Q st.events) h (Hier.abftNext_loc hst _ _ h.same)
theorem ancestorsNext_same (h : SameIn cap Q f g) (st : Ancestors.St) (hst : InO Q st) :
    Eq2 (f.ancestorsNext st) (g.ancestorsNext st) (fun q => InO Q q.2) := emit_loc h (Hier.ancNext_loc hst _ _ h.same)
theorem siblingsNext_same (h : SameIn cap Q f g) (st : Siblings.St) (hst : InS Q st) :
    Eq2 (f.siblingsNext st) (g.siblingsNext st) (fun q => InS Q q.2) := emit_loc h (Hier.sibNext_loc hst _ _ h.same)
theorem siblingsNextBack_same (h : SameIn cap Q f g) (st : Siblings.St) (hst : InS Q st) :
    Eq2 (f.siblingsNextBack st) (g.siblingsNextBack st) (fun q => InS Q q.2) := emit_loc h (Hier.sibNextBack_loc hst _ _ h.same)

theorem rowOf_same (h : SameIn cap Q f g) {x : Nat} (hx : Q x) (k : Row) :
    Eq2 (Req.rowOf f x k) (Req.rowOf g x k) (InS Q) := by
  cases k with
  | children => exact iterNew_loc h hx (Hier.withParent_loc hx)
  | following => exact skipped_loc (iterNew_loc h hx (Hier.withFirst_loc hx)) (siblingsNext_same h)
  | followingOrSelf => exact iterNew_loc h hx (Hier.withFirst_loc hx)
  | preceding => exact skipped_loc (iterNew_loc h hx (Hier.withLast_loc hx)) (siblingsNextBack_same h)
  | precedingOrSelf => exact iterNew_loc h hx (Hier.withLast_loc hx)

theorem linkOf_same (h : SameIn cap Q f g) {x : Nat} (hx : Q x) (k : Link) :
    Eq2 (Req.linkOf f x k) (Req.linkOf g x k) (InO Q) := by
  have hnb := Hier.nbr_loc hx "[validity] the node has been checked to be alive" _ _ h.same
  cases k with
  | parent =>
    unfold Req.linkOf Forest.parentId Forest.nbr
    lr hnb with nb hn
    exact Eq2.const fun _ e => Hier.getParent_in hn e
  | next =>
    unfold Req.linkOf Forest.nextSiblingId Forest.nbr
    lr hnb with nb hn
    exact Eq2.const fun _ e => Hier.nextSibling_in hn e
  | prev =>
    unfold Req.linkOf Forest.prevSiblingId Forest.nbr
    lr hnb with nb hn
    exact Hier.prevSibling_loc hn _ _ h.same
  | firstChild =>
    unfold Req.linkOf Forest.firstChildId Forest.nbr
    lr hnb with nb hn
    exact Eq2.const fun _ e => Hier.firstChild_in hn e
  | lastChild =>
    unfold Req.linkOf Forest.lastChildId Forest.nbr
    lr hnb with nb hn
    exact Hier.lastChild_loc hn _ _ h.same

theorem ends_same (h : SameIn cap Q f g) {x : Nat} (hx : Q x) : f.firstLastChildId x = g.firstLastChildId x := by
  have : Eq2 (f.firstLastChildId x) (g.firstLastChildId x) (fun _ => True) := by
    unfold Forest.firstLastChildId Forest.nbr
    lr (Hier.nbr_loc hx "[validity] the node has been checked to be alive" _ _ h.same) with nb hn
    exact ⟨(Hier.firstLastChild_loc hn _ _ h.same).1, fun _ _ => trivial⟩
  exact this.1

theorem nodeAt_same (h : SameIn cap Q f g) {x : Nat} (hx : Q x) : f.nodeAt x = g.nodeAt x := by
  rw [Forest.nodeAt, Forest.nodeAt, Forest.node, Forest.node, isAlive_same h hx]

theorem nodeData_same (h : SameIn cap Q f g) {x : Nat} (hx : Q x) : f.nodeData x = g.nodeData x := by
  rw [Forest.nodeData, Forest.nodeData, h.data x hx]

theorem nodeAt_eq {f : Forest T} {x y : Nat} (h : f.nodeAt x = .ok y) : y = x := by
  unfold Forest.nodeAt Forest.node at h
  cases hx : f.isAlive x <;> rw [hx] at h <;> simp [expect] at h
  exact h.symm

theorem nearOf_same (h : SameIn cap Q f g) {x : Nat} (hx : Q x) (k : Link) : Req.nearOf f x k = Req.nearOf g x k := by
  obtain ⟨h1, h2⟩ := linkOf_same h hx k
  unfold Req.nearOf Forest.viaNode
  rw [← h1]
  cases e : Req.linkOf f x k with
  | error e => rfl
  | ok o =>
    cases o with
    | none => rfl
    | some y =>
      have hy : Q y := h2 _ e y rfl
      simp only [nodeAt_same h hy]
      cases e' : g.nodeAt y with
      | error e => rfl
      | ok z =>
        rw [nodeAt_eq e']
        simp only [nodeData_same h hy]

theorem nearEndsOf_same (h : SameIn cap Q f g) {x : Nat} (hx : Q x) : Req.nearEndsOf f x = Req.nearEndsOf g x := by
  have h0 : Eq2 (f.firstLastChildId x) (g.firstLastChildId x) (fun o => ∀ p, o = some p → Q p.1 ∧ Q p.2) := by
    unfold Forest.firstLastChildId Forest.nbr
    lr (Hier.nbr_loc hx "[validity] the node has been checked to be alive" _ _ h.same) with nb hn
    exact Hier.firstLastChild_loc hn _ _ h.same
  obtain ⟨h1, h2⟩ := h0
  unfold Req.nearEndsOf Forest.firstLastChild
  rw [← h1]
  cases e : f.firstLastChildId x with
  | error e => rfl
  | ok o =>
    cases o with
    | none => rfl
    | some p =>
      obtain ⟨y, z⟩ := p
      obtain ⟨hy, hz⟩ := h2 _ e _ rfl
      simp only [nodeAt_same h hy, nodeAt_same h hz]
      cases e' : g.nodeAt y with
      | error e => rfl
      | ok y' =>
        cases e'' : g.nodeAt z with
        | error e => rfl
        | ok z' =>
          rw [nodeAt_eq e', nodeAt_eq e'']
          simp only [nodeData_same h hy, nodeData_same h hz]

end Forest

/-! ### Printing -/
namespace DebugPrint
variable {S : Type}

theorem ofR_same {α : Type} {r r' : R α} (h : r = r') : (P.ofR r : P S α) = P.ofR r' := by rw [h]

theorem isLastSibling_same {f g : Forest T} (h : SameIn cap Q f g) {x : Nat} (hx : Q x) :
    isLastSibling f.hier x = isLastSibling g.hier x := by
  have : Eq2 (isLastSibling f.hier x) (isLastSibling g.hier x) (fun _ => True) := by
    unfold isLastSibling
    lr (Hier.travNbr_loc hx _ _ h.same) with nb hn
    exact ⟨rfl, fun _ _ => trivial⟩
  exact this.1

/-- The results are the same, and a returned value is good. -/
def PSame {α : Type} (m m' : P S α) (good : α → Prop) : Prop := m = m' ∧ ∀ w a w', m w = .ok a w' → good a

theorem PSame.bind {α β : Type} {m m' : P S α} {k k' : α → P S β} {good : α → Prop} {good' : β → Prop}
    (h : PSame m m' good) (hk : ∀ a, good a → PSame (k a) (k' a) good') : PSame (m >>= k) (m' >>= k') good' := by
  obtain ⟨rfl, h2⟩ := h
  refine ⟨?_, fun w b w' e => ?_⟩
  · funext w
    rw [P.run_bind, P.run_bind]
    cases e : m w with
    | ok a w' => exact congrFun (hk a (h2 w a w' e)).1 w'
    | err w' => rfl
    | fail x w' => rfl
  · rw [P.run_bind] at e
    cases e' : m w with
    | ok a w'' => rw [e'] at e; exact (hk a (h2 w a w'' e')).2 _ _ _ e
    | err w'' => rw [e'] at e; cases e
    | fail x w'' => rw [e'] at e; cases e

theorem PSame.ofR {α : Type} {r r' : R α} {good : α → Prop} (h : Eq2 r r' good) : PSame (S := S) (P.ofR r) (P.ofR r') good := by
  refine ⟨by rw [h.1], fun w a w' e => ?_⟩
  cases e' : r with
  | ok b => rw [e'] at e; cases e; exact h.2 _ e'
  | error x => rw [e'] at e; cases e

theorem PSame.refl {α : Type} (m : P S α) : PSame m m (fun _ => True) := ⟨rfl, fun _ _ _ _ => trivial⟩
theorem PSame.pure {α : Type} {a : α} {good : α → Prop} (h : good a) :
    PSame (S := S) (Pure.pure a) (Pure.pure a) good := ⟨rfl, fun _ _ _ e => by cases e; exact h⟩
theorem PSame.throw {α : Type} {e : Fail} {good : α → Prop} :
    PSame (S := S) (P.throw e : P S α) (P.throw e) good := ⟨rfl, fun _ _ _ e => by cases e⟩

theorem writeData_same (put : S → Text → Except S S) (disp : T → Fmt) {f g : Forest T} (h : SameIn cap Q f g) {x : Nat} (hx : Q x) :
    writeData put disp f x = writeData put disp g x := by
  unfold writeData; rw [h.data x hx]

theorem prepareNext_same (put : S → Text → Except S S) {f g : Forest T} (h : SameIn cap Q f g) : ∀ (n : Nat) {st : Dft.St},
    InS (fun e : Ev Nat => Q e.node) st → PSame (prepareNext put f.hier n st) (prepareNext put g.hier n st)
      (fun q => InO Q q.1 ∧ InS (fun e : Ev Nat => Q e.node) q.2)
  | 0, _, _ => by unfold prepareNext; exact PSame.throw
  | n + 1, st, hst => by
    unfold prepareNext
    refine PSame.bind (PSame.ofR (Hier.dftNext_loc hst _ _ h.same)) fun q hq => ?_
    obtain ⟨ev, st'⟩ := q
    cases ev with
    | none => exact PSame.pure ⟨Hier.InO.none, hq.2⟩
    | some e =>
      cases e with
      | cls id =>
        refine PSame.bind (PSame.refl _) fun ok _ => ?_
        cases ok with
        | true => exact prepareNext_same put h n hq.2
        | false => exact PSame.pure ⟨Hier.InO.none, hq.2⟩
      | opn id =>
        have hid : Q id := hq.1 _ rfl
        dsimp only
        rw [isLastSibling_same h hid]
        refine PSame.bind (PSame.refl _) fun b _ => ?_
        refine PSame.bind (PSame.refl _) fun _ _ => ?_
        exact PSame.pure ⟨Hier.InO.some hid, hq.2⟩

theorem printLoop_same (put : S → Text → Except S S) (disp : T → Fmt) {f g : Forest T} (h : SameIn cap Q f g) (fuel : Nat) :
    ∀ (n : Nat) {st : Dft.St}, InS (fun e : Ev Nat => Q e.node) st →
    PSame (printLoop put disp f fuel n st) (printLoop put disp g fuel n st) (InS (fun e : Ev Nat => Q e.node))
  | 0, _, _ => by unfold printLoop; exact PSame.throw
  | n + 1, st, hst => by
    unfold printLoop
    refine PSame.bind (prepareNext_same put h fuel hst) fun q hq => ?_
    obtain ⟨o, st'⟩ := q
    cases o with
    | none => exact PSame.pure hq.2
    | some id =>
      dsimp only
      rw [writeData_same put disp h (hq.1 id rfl)]
      exact PSame.bind (PSame.refl _) fun _ _ => printLoop_same put disp h fuel n hq.2

theorem inner_same (put : S → Text → Except S S) (disp : T → Fmt) {f g : Forest T} (h : SameIn cap Q f g) {x : Nat} (hx : Q x) :
    inner put disp f x = inner put disp g x := by
  have hfuel : fuel f.hier = fuel g.hier := by unfold fuel; rw [h.size]
  have : PSame (inner put disp f x) (inner put disp g x) (fun _ => True) := by
    unfold inner
    rw [hfuel, writeData_same put disp h hx]
    refine PSame.bind (PSame.ofR (Hier.dftTop_loc hx _ _ h.same)) fun st hst => ?_
    refine PSame.bind (PSame.ofR (Hier.dftNext_loc hst _ _ h.same)) fun q hq => ?_
    refine PSame.bind (PSame.refl _) fun _ _ => ?_
    refine PSame.bind (printLoop_same put disp h _ _ hq.2) fun st hst => ?_
    refine PSame.bind (PSame.ofR (Hier.dftNext_loc hst _ _ h.same)) fun q hq => ?_
    exact PSame.refl _
  exact this.1

end DebugPrint

theorem Forest.debugPrint_same {S : Type} (put : S → Text → Except S S) (disp : T → Fmt) {f g : Forest T} (h : SameIn cap Q f g)
    {x : Nat} (hx : Q x) : f.debugPrint put disp x = g.debugPrint put disp x := by
  unfold Forest.debugPrint
  rw [Forest.node_same h hx]
  funext σ
  unfold Forest.node
  cases g.isAlive x with
  | false => rfl
  | true =>
    simp only [Bool.not_true, Bool.false_eq_true, if_false, expect]
    rw [DebugPrint.inner_same put disp h hx]

/-! ### Any call -/

theorem ofRes_loc {α : Type} {k : α → Ans T} {f g : Forest T} {m : M (Forest T) α} {good : α → Prop} (h : SameIn cap Q f g)
    (hm : Loc (SameIn cap Q) (SameOut cap Q) m good) :
    (Ans.ofRes k (m f)).2 = (Ans.ofRes k (m g)).2 ∧ SameIn cap Q (Ans.ofRes k (m f)).1 (Ans.ofRes k (m g)).1 ∧
      SameOut cap Q f (Ans.ofRes k (m f)).1 := by
  obtain ⟨t, t', h1, h2, _, h4⟩ := hm f g h
  rcases h4 with ⟨a, e1, e2, _⟩ | ⟨e, e1, e2⟩
  · rw [e1, e2]; exact ⟨rfl, h1, h2⟩
  · rw [e1, e2]; exact ⟨rfl, h1, h2⟩

theorem ofResS_loc {α S : Type} {k : α → S → Ans T} {f g : Forest T} {c : S} {m : M (Forest T × S) α} {good : α → Prop}
    (h : SameIn cap Q f g) (hm : Loc (SameS cap Q) (OutS cap Q) m good) :
    (Ans.ofResS k (m (f, c))).2 = (Ans.ofResS k (m (g, c))).2 ∧
      SameIn cap Q (Ans.ofResS k (m (f, c))).1 (Ans.ofResS k (m (g, c))).1 ∧ SameOut cap Q f (Ans.ofResS k (m (f, c))).1 := by
  obtain ⟨⟨t, s⟩, ⟨t', s'⟩, ⟨h1, hs⟩, h2, _, h4⟩ := hm (f, c) (g, c) ⟨h, rfl⟩
  dsimp only at hs h1
  subst hs
  rcases h4 with ⟨a, e1, e2, _⟩ | ⟨e, e1, e2⟩
  · rw [e1, e2]; exact ⟨rfl, h1, h2⟩
  · rw [e1, e2]; exact ⟨rfl, h1, h2⟩

theorem Req.exec_local (cap um : Nat) {f g : Forest T} (h : SameIn cap Q f g) (q : Req T) (hq : ∀ x ∈ q.ids, Q x) :
    (q.exec cap um f).2 = (q.exec cap um g).2 ∧ SameIn cap Q (q.exec cap um f).1 (q.exec cap um g).1 ∧
      SameOut cap Q f (q.exec cap um f).1 := by
  have keep : ∀ {a b : Ans T}, a = b → (((f, a) : Forest T × Ans T).2 = ((g, b) : Forest T × Ans T).2 ∧
      SameIn cap Q ((f, a) : Forest T × Ans T).1 ((g, b) : Forest T × Ans T).1 ∧ SameOut cap Q f ((f, a) : Forest T × Ans T).1) :=
    fun e => ⟨e, h, sameOut_ord.refl f⟩
  cases q with
  | alive x => exact keep (by rw [Forest.node, Forest.node, Forest.isAlive_same h (hq x (by simp [ids]))])
  | near x k =>
    have hx := hq x (by simp [ids])
    exact keep (by rw [Forest.isAlive_same h hx, Forest.nearOf_same h hx k])
  | nearEnds x =>
    have hx := hq x (by simp [ids])
    exact keep (by rw [Forest.isAlive_same h hx, Forest.nearEndsOf_same h hx])
  | drop x => exact ofRes_loc h (Forest.remove_loc (hq x (by simp [ids])))
  | dup x cl => exact ofRes_loc h (Forest.noHook_loc (Forest.cloneLocal_loc cap cl _ (hq x (by simp [ids]))))
  | data x => exact keep (by rw [h.data x (hq x (by simp [ids]))])
  | link x k =>
    have hx := hq x (by simp [ids])
    exact keep (by rw [Forest.isAlive_same h hx, (Forest.linkOf_same h hx k).1])
  | ends x =>
    have hx := hq x (by simp [ids])
    exact keep (by rw [Forest.isAlive_same h hx, Forest.ends_same h hx])
  | dft x ds =>
    have hx := hq x (by simp [ids])
    exact keep (congrArg (Ans.ofR _) (Forest.iterate_loc (Forest.iterNew_loc h hx (Hier.dftTop_loc hx)) (Forest.dftNext_same h) (Forest.dftNextBack_same h) ds))
  | shallow x max ds =>
    have hx := hq x (by simp [ids])
    exact keep (congrArg (Ans.ofR _) (Forest.iterate_loc (Forest.iterNew_loc h hx (Hier.shTop_loc um hx max)) (Forest.shallowNext_same h)
        (Forest.shallowNextBack_same h) ds))
  | bft x n =>
    have hx := hq x (by simp [ids])
    exact keep (congrArg (Ans.ofR _) (Forest.iterate1_loc (Forest.iterNew_loc h hx (Hier.bftTop_loc um hx)) (Forest.bftNext_same um h) n))
  | abft x n =>
    have hx := hq x (by simp [ids])
    exact keep (congrArg (Ans.ofR _) (Forest.iterate1_loc (Forest.iterNew_loc h hx (Hier.abftTop_loc hx)) (Forest.abftNext_same h) n))
  | ancestors x self n =>
    have hx := hq x (by simp [ids])
    have h1 : Eq2 (f.ancestorsOrSelf x) (g.ancestorsOrSelf x) (InO Q) := Forest.iterNew_loc h hx (Hier.withStart_loc hx)
    have h2 : Eq2 (f.ancestors x) (g.ancestors x) (InO Q) := Forest.skipped_loc h1 (Forest.ancestorsNext_same h)
    cases self with
    | true => exact keep (by
        simp only [if_true]; rw [Forest.iterate1_loc h1 (Forest.ancestorsNext_same h) n])
    | false => exact keep (by
        simp only [Bool.false_eq_true, if_false]; rw [Forest.iterate1_loc h2 (Forest.ancestorsNext_same h) n])
  | row x k ds =>
    have hx := hq x (by simp [ids])
    exact keep (by
      rw [Forest.iterate_loc (Forest.rowOf_same h hx k) (Forest.siblingsNext_same h) (Forest.siblingsNextBack_same h) ds])
  | createRoot d => exact ofRes_loc h (Forest.createRoot_loc cap d)
  | createInsert d dest => exact ofRes_loc h (Forest.createInsert_loc cap d (hq _ (by simp [ids])))
  | setData x v => exact ofRes_loc h (Forest.setData_loc (hq x (by simp [ids])) v)
  | insert x dest => exact ofRes_loc h (Forest.insert_loc (hq x (by simp [ids])) (hq _ (by simp [ids])))
  | detach x => exact ofRes_loc h (Forest.detach_loc (hq x (by simp [ids])))
  | detachSingle x => exact ofRes_loc h (Forest.detachSingle_loc (hq x (by simp [ids])))
  | remove x limit => exact ofResS_loc h (Forest.removeHooked_loc _ (hq x (by simp [ids])))
  | removeSafe x limit => exact ofResS_loc h (Forest.removeHookedPanicSafe_loc _ (hq x (by simp [ids])))
  | copy x cl limit => exact ofResS_loc h (Forest.cloneLocal_loc cap cl _ (hq x (by simp [ids])))
  | nodeCreate self d dest =>
    have hs := hq self (by simp [ids])
    simp only [exec]
    rw [Forest.isAlive_same h hs]
    cases g.isAlive self with
    | false => exact keep rfl
    | true => exact ofRes_loc h (NodeMut.create_loc cap hs d dest)
  | tryAdopt self x dest =>
    have hs := hq self (by simp [ids])
    simp only [exec]
    rw [Forest.isAlive_same h hs]
    cases g.isAlive self with
    | false => exact keep rfl
    | true => exact ofRes_loc h (NodeMut.tryAdopt_loc hs (hq x (by simp [ids])) dest)
  | adopt self x dest =>
    have hs := hq self (by simp [ids])
    simp only [exec]
    rw [Forest.isAlive_same h hs]
    cases g.isAlive self with
    | false => exact keep rfl
    | true => exact ofRes_loc h (NodeMut.adopt_loc hs (hq x (by simp [ids])) dest)
  | nest d calls => exact ofRes_loc h (nestBuild_loc cap d calls)
  | chain d calls => exact ofRes_loc h (chainBuild_loc cap d calls)
  | print x pieces => exact keep (by rw [Forest.debugPrint_same _ _ h (hq x (by simp [ids]))])

theorem state_loc {α : Type} {f g : Forest T} {m : M (Forest T) α} {good : α → Prop} (h : SameIn cap Q f g)
    (hm : Loc (SameIn cap Q) (SameOut cap Q) m good) :
    Op.valueOf (m f) = Op.valueOf (m g) ∧ SameIn cap Q (m f).state (m g).state ∧ SameOut cap Q f (m f).state := by
  obtain ⟨t, t', h1, h2, _, h4⟩ := hm f g h
  rcases h4 with ⟨a, e1, e2, _⟩ | ⟨e, e1, e2⟩
  · rw [e1, e2]; exact ⟨rfl, h1, h2⟩
  · rw [e1, e2]; exact ⟨rfl, h1, h2⟩

theorem stateS_loc {α S : Type} {f g : Forest T} {c : S} {m : M (Forest T × S) α} {good : α → Prop} (h : SameIn cap Q f g)
    (hm : Loc (SameS cap Q) (OutS cap Q) m good) :
    Op.valueOf (m (f, c)) = Op.valueOf (m (g, c)) ∧ SameIn cap Q (Op.forestOf (m (f, c))) (Op.forestOf (m (g, c))) ∧
      SameOut cap Q f (Op.forestOf (m (f, c))) := by
  obtain ⟨t, t', h1, h2, _, h4⟩ := hm (f, c) (g, c) ⟨h, rfl⟩
  unfold Op.forestOf
  rcases h4 with ⟨a, e1, e2, _⟩ | ⟨e, e1, e2⟩
  · rw [e1, e2]; exact ⟨rfl, h1.1, h2⟩
  · rw [e1, e2]; exact ⟨rfl, h1.1, h2⟩

theorem Op.step_local (cap : Nat) {f g : Forest T} (h : SameIn cap Q f g) (op : Op T) (hq : ∀ x ∈ op.ids, Q x) :
    op.newId cap f = op.newId cap g ∧ SameIn cap Q (op.step cap f) (op.step cap g) ∧ SameOut cap Q f (op.step cap f) := by
  have keep : (none : Option Nat) = none ∧ SameIn cap Q f g ∧ SameOut cap Q f f := ⟨rfl, h, sameOut_ord.refl f⟩
  cases op with
  | createRoot d => exact state_loc h (Forest.createRoot_loc cap d)
  | createInsert d dest => exact state_loc h (Forest.createInsert_loc cap d (hq _ (by simp [ids])))
  | setData x v => exact ⟨rfl, (state_loc h (Forest.setData_loc (hq x (by simp [ids])) v)).2⟩
  | insert x dest => exact ⟨rfl, (state_loc h (Forest.insert_loc (hq x (by simp [ids])) (hq _ (by simp [ids])))).2⟩
  | detach x => exact ⟨rfl, (state_loc h (Forest.detach_loc (hq x (by simp [ids])))).2⟩
  | detachSingle x => exact ⟨rfl, (state_loc h (Forest.detachSingle_loc (hq x (by simp [ids])))).2⟩
  | remove x => exact ⟨rfl, (state_loc h (Forest.remove_loc (hq x (by simp [ids])))).2⟩
  | removeHooked S hook c x => exact ⟨rfl, (stateS_loc h (Forest.removeHooked_loc _ (hq x (by simp [ids])))).2⟩
  | removeHookedPanicSafe S hook c x =>
    exact ⟨rfl, (stateS_loc h (Forest.removeHookedPanicSafe_loc _ (hq x (by simp [ids])))).2⟩
  | cloneLocal S cl hook c x => exact stateS_loc h (Forest.cloneLocal_loc cap cl hook (hq x (by simp [ids])))
  | cloneForeign S cl hook c fsrc x => exact stateS_loc h (Forest.cloneForeign_loc cap cl hook fsrc x)
  | nodeCreate self d dest =>
    have hs := hq self (by simp [ids])
    simp only [newId, step]
    rw [Forest.isAlive_same h hs]
    cases g.isAlive self with
    | false => exact keep
    | true => exact state_loc h (NodeMut.create_loc cap hs d dest)
  | tryAdopt self x dest =>
    have hs := hq self (by simp [ids])
    simp only [newId, step]
    rw [Forest.isAlive_same h hs]
    cases g.isAlive self with
    | false => exact ⟨trivial, keep.2⟩
    | true => exact ⟨trivial, (state_loc h (NodeMut.tryAdopt_loc hs (hq x (by simp [ids])) dest)).2⟩
  | adopt self x dest =>
    have hs := hq self (by simp [ids])
    simp only [newId, step]
    rw [Forest.isAlive_same h hs]
    cases g.isAlive self with
    | false => exact ⟨trivial, keep.2⟩
    | true => exact ⟨trivial, (state_loc h (NodeMut.adopt_loc hs (hq x (by simp [ids])) dest)).2⟩
  | nest d calls => exact state_loc h (nestBuild_loc cap d calls)
  | chain d calls => exact state_loc h (chainBuild_loc cap d calls)

end Treena
