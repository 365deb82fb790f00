import Verif.Proof.LocalIter
import Verif.Proof.ReleaseHist
import Verif.Proof.Build
import Verif.Spec.Salvage
/-! Locality of the calls of the two builds and of iterators that are kept. -/
set_option autoImplicit false
namespace Treena

namespace Mach
open Hier
variable {cap : Nat} {Q : Nat → Prop}

theorem shFwd_loc (A : Arith) (max : Option Nat) {e : Ev Nat × Nat} (he : Q e.1.node) :
    LocR (Same cap Q) (fun h => Mach.Shallow.stepFwd A h max e) (fun o => ∀ e', o = some e' → Q e'.1.node) := fun h h' hs => by
  obtain ⟨e, d⟩ := e
  have hsome : ∀ {e : Ev Nat} {d : Nat}, Q e.node → ∀ e', some (e, d) = some e' → Q e'.1.node :=
    fun he _ e => by cases e; exact he
  unfold Mach.Shallow.stepFwd
  cases e with
  | opn id =>
    dsimp only
    split
    · exact Eq2.ok (hsome he)
    · lr (travNbr_loc (x := id) he h h' hs) with nb hn
      lr (Eq2.const fun _ e => firstChild_in hn e) with o ho
      cases o with
      | none => exact Eq2.ok (hsome he)
      | some c =>
        cases A.succ d with
        | error e => exact Eq2.err
        | ok d' => exact Eq2.ok (hsome (ho c rfl))
  | cls id =>
    lr (travNbr_loc (x := id) he h h' hs) with nb hn
    lr (Eq2.const fun _ e => nextSibling_in hn e) with o ho
    cases o with
    | some c => exact Eq2.ok (hsome (ho c rfl))
    | none =>
      lr (Eq2.const fun _ e => getParent_in hn e) with p hp
      lr (expect_in hp "[consistency] parent node must exist since the node is not the root") with p hp
      cases A.pred d with
      | error e => exact Eq2.err
      | ok d' => exact Eq2.ok (hsome hp)

theorem shBack_loc (A : Arith) (max : Option Nat) {e : Ev Nat × Nat} (he : Q e.1.node) :
    LocR (Same cap Q) (fun h => Mach.Shallow.stepBack A h max e) (fun o => ∀ e', o = some e' → Q e'.1.node) := fun h h' hs => by
  obtain ⟨e, d⟩ := e
  have hsome : ∀ {e : Ev Nat} {d : Nat}, Q e.node → ∀ e', some (e, d) = some e' → Q e'.1.node :=
    fun he _ e => by cases e; exact he
  unfold Mach.Shallow.stepBack
  cases e with
  | cls id =>
    dsimp only
    split
    · exact Eq2.ok (hsome he)
    · lr (travNbr_loc (x := id) he h h' hs) with nb hn
      lr (lastChild_loc hn h h' hs) with o ho
      cases o with
      | none => exact Eq2.ok (hsome he)
      | some c =>
        cases A.succ d with
        | error e => exact Eq2.err
        | ok d' => exact Eq2.ok (hsome (ho c rfl))
  | opn id =>
    lr (travNbr_loc (x := id) he h h' hs) with nb hn
    lr (prevSibling_loc hn h h' hs) with o ho
    cases o with
    | some c => exact Eq2.ok (hsome (ho c rfl))
    | none =>
      lr (Eq2.const fun _ e => getParent_in hn e) with p hp
      lr (expect_in hp "[consistency] parent node must exist since the node is not the root") with p hp
      cases A.pred d with
      | error e => exact Eq2.err
      | ok d' => exact Eq2.ok (hsome hp)

theorem shNext_loc (A : Arith) {st : Treena.Shallow.St} (hst : InSh Q st) :
    LocR (Same cap Q) (fun h => Mach.Shallow.next A h st) (fun q => (∀ e, q.1 = some e → Q e.1.node) ∧ InSh Q q.2) := fun h h' hs => by
  unfold Mach.Shallow.next
  lr (deNext_loc (A := Same cap Q) (fun _ he => shFwd_loc A st.maxDepth he) hst h h' hs) with q hq
  exact Eq2.ok hq
theorem shNextBack_loc (A : Arith) {st : Treena.Shallow.St} (hst : InSh Q st) :
    LocR (Same cap Q) (fun h => Mach.Shallow.nextBack A h st) (fun q => (∀ e, q.1 = some e → Q e.1.node) ∧ InSh Q q.2) := fun h h' hs => by
  unfold Mach.Shallow.nextBack
  lr (deNextBack_loc (A := Same cap Q) (fun _ he => shBack_loc A st.maxDepth he) hst h h' hs) with q hq
  exact Eq2.ok hq

theorem nextInner_loc (A : Arith) (depth : Nat) : ∀ (fuel : Nat) {st : Treena.Shallow.St}, InSh Q st →
    LocR (Same cap Q) (fun h => Mach.nextInner A h depth fuel st) (fun q => InO Q q.1 ∧ InSh Q q.2)
  | 0, _, _ => fun _ _ _ => Eq2.err
  | fuel + 1, st, hst => fun h h' hs => by
    unfold Mach.nextInner
    lr (shNext_loc A hst h h' hs) with q hq
    obtain ⟨o, st'⟩ := q
    cases o with
    | none => exact Eq2.ok ⟨InO.none, hq.2⟩
    | some e =>
      obtain ⟨ev, d⟩ := e
      dsimp only
      split
      · cases ev with
        | opn id => exact Eq2.ok ⟨InO.some (hq.1 _ rfl), hq.2⟩
        | cls id => exact nextInner_loc A depth fuel hq.2 h h' hs
      · exact nextInner_loc A depth fuel hq.2 h h' hs

theorem bftNext_loc (A : Arith) (um : Nat) {st : Bft.St} (hst : InB Q st) :
    LocR (Same cap Q) (fun h => Mach.bftNext A um h st) (fun q => (∀ e, q.1 = some e → Q e.1) ∧ InB Q q.2) := fun h h' hs => by
  have hfuel : ∀ d, Bft.fuel h d = Bft.fuel h' d := fun d => by unfold Bft.fuel; rw [hs.size]
  have hsome : ∀ {x d : Nat}, Q x → ∀ e', some (x, d) = some e' → Q e'.1 := fun he _ e => by cases e; exact he
  unfold Mach.bftNext
  dsimp only
  cases hr : st.root with
  | none => exact Eq2.ok ⟨fun _ e => (by cases e), hst⟩
  | some root =>
    have hroot := hst.2 root hr
    dsimp only
    rw [hfuel]
    lr (nextInner_loc A st.depth (Bft.fuel h' st.depth) hst.1 h h' hs) with q hq
    obtain ⟨o, inner⟩ := q
    cases o with
    | some id => exact Eq2.ok ⟨hsome (hq.1 id rfl), hq.2, InO.some hroot⟩
    | none =>
      dsimp only
      cases A.succ st.depth with
      | error e => exact Eq2.err
      | ok depth =>
        dsimp only
        rw [hfuel]
        lr (shTop_loc um hroot (some depth) h h' hs) with inner1 hin
        lr (nextInner_loc A depth (Bft.fuel h' depth) hin h h' hs) with q hq
        obtain ⟨o, inner2⟩ := q
        cases o with
        | some id => exact Eq2.ok ⟨hsome (hq.1 id rfl), hq.2, InO.some hroot⟩
        | none => exact Eq2.ok ⟨fun _ e => (by cases e), hq.2, InO.none⟩

theorem abftLoop_loc (A : Arith) : ∀ (fuel : Nat) {st : ABft.St}, InQ Q st.events →
    LocR (Same cap Q) (fun h => Mach.abftLoop A h fuel st) (fun q => (∀ e, q.1 = some e → Q e.1) ∧ InQ Q q.2.events)
  | 0, _, _ => fun _ _ _ => Eq2.err
  | fuel + 1, st, hst => fun h h' hs => by
    have hfuel : h.loopFuel = h'.loopFuel := by unfold loopFuel; rw [hs.size]
    unfold Mach.abftLoop
    dsimp only
    cases he : st.events with
    | nil => exact Eq2.ok ⟨fun _ e => (by cases e), hst⟩
    | cons ev rest =>
      cases ev with
      | incrementDepth =>
        dsimp only
        split
        · exact Eq2.ok ⟨fun _ e => (by cases e), fun _ hy => (by cases hy)⟩
        · cases A.succ st.depth with
          | error e => exact Eq2.err
          | ok depth =>
            refine abftLoop_loc A fuel (fun y hy => ?_) h h' hs
            rcases List.mem_append.1 hy with hy | hy
            · exact hst y (by rw [he]; exact List.mem_cons_of_mem _ hy)
            · simp at hy
      | node id =>
        have hid : Q id := hst id (by rw [he]; exact List.mem_cons_self)
        lr (nbr_loc hid "[consistency] the node to be traversed must be alive" h h' hs) with nb hn
        lr (Eq2.const fun _ e => firstChild_in hn e) with fc hfc
        rw [hfuel]
        lr (pushChildren_loc h'.loopFuel hfc (l := rest) (fun y hy => hst y (by rw [he]; exact List.mem_cons_of_mem _ hy))
          h h' hs) with q hq
        exact Eq2.ok ⟨fun _ e => (by cases e; exact hid), hq⟩

theorem abftNext_loc (A : Arith) {st : ABft.St} (hst : InQ Q st.events) :
    LocR (Same cap Q) (fun h => Mach.abftNext A h st) (fun q => (∀ e, q.1 = some e → Q e.1) ∧ InQ Q q.2.events) :=
  abftLoop_loc A _ hst

theorem abftPeek_in (A : Arith) {st : ABft.St} (hst : InQ Q st.events) {o : Option (Nat × Nat)} (h : Mach.abftPeek A st = .ok o) :
    ∀ e, o = some e → Q e.1 := by
  intro e ho
  subst ho
  unfold Mach.abftPeek at h
  cases he : st.events with
  | nil => rw [he] at h; cases h
  | cons ev rest =>
    rw [he] at h
    cases ev with
    | node n => cases h; exact hst n (by rw [he]; simp)
    | incrementDepth =>
      cases rest with
      | nil => cases h
      | cons ev' rest' =>
        cases ev' with
        | incrementDepth => cases h
        | node n =>
          dsimp only at h
          cases hs : A.succ st.depth with
          | error e => rw [hs] at h; cases h
          | ok d => rw [hs] at h; cases h; exact hst n (by rw [he]; simp)

variable {T : Type} {f g : Forest T}

theorem shallowNext_same (A : Arith) (h : SameIn cap Q f g) (st : Treena.Shallow.St) (hst : InSh Q st) :
    Eq2 (Mach.shallowNext A f st) (Mach.shallowNext A g st) (fun q => InSh Q q.2) :=
  Forest.emit_loc h (shNext_loc A hst _ _ h.same)
theorem shallowNextBack_same (A : Arith) (h : SameIn cap Q f g) (st : Treena.Shallow.St) (hst : InSh Q st) :
    Eq2 (Mach.shallowNextBack A f st) (Mach.shallowNextBack A g st) (fun q => InSh Q q.2) :=
  Forest.emit_loc h (shNextBack_loc A hst _ _ h.same)
theorem breadthFirstNext_same (A : Arith) (um : Nat) (h : SameIn cap Q f g) (st : Bft.St) (hst : InB Q st) :
    Eq2 (Mach.breadthFirstNext A um f st) (Mach.breadthFirstNext A um g st) (fun q => InB Q q.2) :=
  Forest.emit_loc h (bftNext_loc A um hst _ _ h.same)
theorem allocatingNext_same (A : Arith) (h : SameIn cap Q f g) (st : ABft.St) (hst : InQ Q st.events) :
    Eq2 (Mach.allocatingNext A f st) (Mach.allocatingNext A g st) (fun q => InQ Q q.2.events) :=
  Forest.emit_loc (P := fun st : ABft.St => InQ Q st.events) h (abftNext_loc A hst _ _ h.same)

end Mach

namespace Release
open Treena.Hier
variable {cap : Nat} {Q : Nat → Prop}

theorem hier_detachSingle_loc {x : Nat} (hx : Q x) : Loc (Same cap Q) (Out Q) (Release.Hier.detachSingle x) (fun _ => True) := by
  unfold Release.Hier.detachSingle
  refine Loc.bind out_ord (nbrOf_loc hx _) fun nb hn => ?_
  refine Loc.bind out_ord (Loc.read out_ord (firstLastChild_loc hn)) fun fl hfl => ?_
  cases fl with
  | none => exact Loc.bind out_ord (detach_loc hx) fun _ _ => Loc.pure out_ord trivial
  | some p =>
    obtain ⟨a, b⟩ := p
    obtain ⟨ha, hb⟩ := hfl _ rfl
    refine Loc.bind out_ord (readNb_loc hn Neighbors.getParent (getParent_in hn)) fun po hpo => ?_
    cases po with
    | none =>
      refine Loc.ite (fun _ => Loc.pure out_ord trivial) fun _ => ?_
      exact Loc.bind out_ord (detach_loc ha) fun _ _ => Loc.bind out_ord (detach_loc hx) fun _ _ => Loc.pure out_ord trivial
    | some p =>
      refine Loc.bind out_ord (Loc.read out_ord (prevSibling_loc hn)) fun u hu => ?_
      refine Loc.bind out_ord (readNb_loc hn Neighbors.nextSibling (nextSibling_in hn)) fun v hv => ?_
      refine Loc.bind out_ord (connectTriangle_loc hpo hu hv) fun _ _ => ?_
      refine Loc.bind out_ord (Loc.read out_ord (rangeNew_loc ha hb)) fun r hr => ?_
      refine Loc.bind out_ord (transplant_loc hr.1 hr.2 (hpo p rfl) hu hv) fun e _ => ?_
      cases e with
      | error _ => exact Loc.panic out_ord _
      | ok u =>
        refine Loc.bind out_ord (updNbr_loc hx _ fun nb hn => InN.mk InO.none (InO.some hx) InO.none hn.first) fun _ _ => ?_
        exact Loc.pure out_ord trivial

theorem detachSingle_loc {T : Type} {x : Nat} (hx : Q x) :
    Loc (SameIn (T := T) cap Q) (SameOut cap Q) (Release.Forest.detachSingle x) (fun _ => True) :=
  Treena.Forest.onHier_loc (hier_detachSingle_loc hx)

end Release

variable {T : Type} {cap : Nat} {Q : Nat → Prop} {f g : Forest T}
open Hier (InO InN InE InS InSh InB InQ Same Out)

/-! ### Any call on a build -/

theorem Build.exec_local (b : Build) (cap um : Nat) (h : SameIn cap Q f g) (q : Req T) (hq : ∀ x ∈ q.ids, Q x) :
    (b.exec cap um f q).2 = (b.exec cap um g q).2 ∧ SameIn cap Q (b.exec cap um f q).1 (b.exec cap um g q).1 ∧
      SameOut cap Q f (b.exec cap um f q).1 := by
  have keep : ∀ {a b : Ans T}, a = b → (((f, a) : Forest T × Ans T).2 = ((g, b) : Forest T × Ans T).2 ∧
      SameIn cap Q ((f, a) : Forest T × Ans T).1 ((g, b) : Forest T × Ans T).1 ∧ SameOut cap Q f ((f, a) : Forest T × Ans T).1) :=
    fun e => ⟨e, h, sameOut_ord.refl f⟩
  cases q with
  | shallow x max ds =>
    have hx := hq x (by simp [Req.ids])
    exact keep (congrArg (Ans.ofR _) (Forest.iterate_loc (Forest.iterNew_loc h hx (Hier.shTop_loc um hx max))
      (Mach.shallowNext_same _ h) (Mach.shallowNextBack_same _ h) ds))
  | bft x n =>
    have hx := hq x (by simp [Req.ids])
    exact keep (congrArg (Ans.ofR _) (Forest.iterate1_loc (Forest.iterNew_loc h hx (Hier.bftTop_loc um hx))
      (Mach.breadthFirstNext_same _ um h) n))
  | abft x n =>
    have hx := hq x (by simp [Req.ids])
    exact keep (congrArg (Ans.ofR _) (Forest.iterate1_loc (Forest.iterNew_loc h hx (Hier.abftTop_loc hx))
      (Mach.allocatingNext_same _ h) n))
  | detachSingle x =>
    have hx := hq x (by simp [Req.ids])
    cases b with
    | debug => exact ofRes_loc h (Forest.detachSingle_loc hx)
    | release => exact ofRes_loc h (Release.detachSingle_loc hx)
  | drop x =>
    have hx := hq x (by simp [Req.ids])
    cases b with
    | debug => exact ofRes_loc h (Forest.remove_loc hx)
    | release =>
      simp only [exec, pick, Release.remove_eq]
      exact ofRes_loc h (Forest.remove_loc hx)
  | remove x limit =>
    have hx := hq x (by simp [Req.ids])
    cases b with
    | debug => exact ofResS_loc h (Forest.removeHooked_loc _ hx)
    | release =>
      simp only [exec, pick, Release.removeHooked_eq]
      exact ofResS_loc h (Forest.removeHooked_loc _ hx)
  | removeSafe x limit =>
    have hx := hq x (by simp [Req.ids])
    cases b with
    | debug => exact ofResS_loc h (Forest.removeHookedPanicSafe_loc _ hx)
    | release => exact ofResS_loc h (Release.removePanicSafe_loc _ hx)
  | copy x cl limit =>
    have hx := hq x (by simp [Req.ids])
    cases b with
    | debug => exact ofResS_loc h (Forest.cloneLocal_loc cap cl _ hx)
    | release =>
      simp only [exec, pick, Release.cloneLocal_eq]
      exact ofResS_loc h (Forest.cloneLocal_loc cap cl _ hx)
  | dup x cl =>
    have hx := hq x (by simp [Req.ids])
    cases b with
    | debug => exact ofRes_loc h (Forest.noHook_loc (Forest.cloneLocal_loc cap cl _ hx))
    | release =>
      simp only [exec, pick, Release.cloneLocal_eq]
      exact ofRes_loc h (Forest.noHook_loc (Forest.cloneLocal_loc cap cl _ hx))
  | print x pieces =>
    have hx := hq x (by simp [Req.ids])
    refine keep ?_
    cases b with
    | debug => simp only [pick]; rw [Forest.debugPrint_same _ _ h hx]
    | release => simp only [pick, Release.debugPrint_eq]; rw [Forest.debugPrint_same _ _ h hx]
  | _ => exact Req.exec_local cap um h _ hq

/-! ### Iterators that are kept -/

/-- The state of an iterator is in the part. -/
def InIter (Q : Nat → Prop) : Iter → Prop
  | .dft st => InS (fun e : Ev Nat => Q e.node) st
  | .shallow st => InSh Q st
  | .bft st => InB Q st
  | .abft st => InQ Q st.events
  | .ancestors st => InO Q st
  | .siblings st => InS Q st

theorem made_loc {σ : Type} {k : σ → Iter} {r r' : R σ} {P : σ → Prop} (h : Eq2 r r' P) (hk : ∀ st, P st → InIter Q (k st)) :
    Eq2 (Iter.made k r) (Iter.made k r') (InIter Q) := by
  unfold Iter.made
  lr h with st hst
  exact Eq2.ok (hk st hst)

theorem lift_loc {ι σ : Type} {i : ι → Item} {k : σ → Iter} {r r' : R (Option ι × σ)} {P : σ → Prop}
    (h : Eq2 r r' (fun q => P q.2)) (hk : ∀ st, P st → InIter Q (k st)) :
    Eq2 (Iter.lift i k r) (Iter.lift i k r') (fun q => InIter Q q.2) := by
  unfold Iter.lift
  lr h with q hq
  exact Eq2.ok (hk _ hq)

theorem emitPeek_loc {ι : Type} (h : SameIn cap Q f g) {idOf : ι → Nat} {r : R (Option ι)}
    (hr : ∀ o, r = .ok o → ∀ i, o = some i → Q (idOf i)) : f.emitPeek idOf r = g.emitPeek idOf r := by
  unfold Forest.emitPeek
  cases e : r with
  | error e => rfl
  | ok o =>
    cases o with
    | none => rfl
    | some i =>
      dsimp only
      rw [Forest.nodeAt_same h (hr _ e i rfl)]

theorem start_loc (um : Nat) (h : SameIn cap Q f g) (q : IterReq) (hq : Q q.node) :
    Eq2 (Iter.start um f q) (Iter.start um g q) (InIter Q) := by
  cases q with
  | dft x => exact made_loc (Forest.iterNew_loc h hq (Hier.dftTop_loc hq)) fun _ h => h
  | shallow x max => exact made_loc (Forest.iterNew_loc h hq (Hier.shTop_loc um hq max)) fun _ h => h
  | bft x => exact made_loc (Forest.iterNew_loc h hq (Hier.bftTop_loc um hq)) fun _ h => h
  | abft x => exact made_loc (Forest.iterNew_loc h hq (Hier.abftTop_loc hq)) fun _ h => h
  | ancestors x self =>
    have hx : Q x := hq
    have h1 : Eq2 (f.ancestorsOrSelf x) (g.ancestorsOrSelf x) (InO Q) := Forest.iterNew_loc h hx (Hier.withStart_loc hx)
    have h2 : Eq2 (f.ancestors x) (g.ancestors x) (InO Q) := Forest.skipped_loc h1 (Forest.ancestorsNext_same h)
    cases self with
    | true => exact made_loc h1 fun _ h => h
    | false => exact made_loc h2 fun _ h => h
  | row x k => exact made_loc (Forest.rowOf_same h hq k) fun _ h => h

theorem next_loc (b : Build) (um : Nat) (h : SameIn cap Q f g) {it : Iter} (hi : InIter Q it) :
    Eq2 (b.next um f it) (b.next um g it) (fun q => InIter Q q.2) := by
  cases it with
  | dft st => exact lift_loc (Forest.dftNext_same h st hi) fun _ h => h
  | shallow st => exact lift_loc (Mach.shallowNext_same _ h st hi) fun _ h => h
  | bft st => exact lift_loc (Mach.breadthFirstNext_same _ um h st hi) fun _ h => h
  | abft st => exact lift_loc (P := fun st : ABft.St => InQ Q st.events) (Mach.allocatingNext_same _ h st hi) fun _ h => h
  | ancestors st => exact lift_loc (Forest.ancestorsNext_same h st hi) fun _ h => h
  | siblings st => exact lift_loc (Forest.siblingsNext_same h st hi) fun _ h => h

theorem nextBack_loc (b : Build) (um : Nat) (h : SameIn cap Q f g) {it : Iter} (hi : InIter Q it) :
    (b.nextBack um f it = none ∧ b.nextBack um g it = none) ∨
      ∃ r r', b.nextBack um f it = some r ∧ b.nextBack um g it = some r' ∧ Eq2 r r' (fun q => InIter Q q.2) := by
  cases it with
  | dft st => exact .inr ⟨_, _, rfl, rfl, lift_loc (Forest.dftNextBack_same h st hi) fun _ h => h⟩
  | shallow st => exact .inr ⟨_, _, rfl, rfl, lift_loc (Mach.shallowNextBack_same _ h st hi) fun _ h => h⟩
  | bft st => exact .inl ⟨rfl, rfl⟩
  | abft st => exact .inl ⟨rfl, rfl⟩
  | ancestors st => exact .inl ⟨rfl, rfl⟩
  | siblings st => exact .inr ⟨_, _, rfl, rfl, lift_loc (Forest.siblingsNextBack_same h st hi) fun _ h => h⟩

theorem peek_loc (b : Build) (um : Nat) (h : SameIn cap Q f g) {it : Iter} (hi : InIter Q it) :
    b.peek um f it = b.peek um g it := by
  cases it with
  | dft st =>
    refine congrArg (fun r => some (Iter.lift1 _ r)) (emitPeek_loc h fun o ho e he => ?_)
    subst he
    cases st with
    | none => cases ho
    | some p => cases ho; exact (hi p rfl).1
  | shallow st =>
    refine congrArg (fun r => some (Iter.lift1 _ r)) (emitPeek_loc h fun o ho e he => ?_)
    subst he
    obtain ⟨n, m⟩ := st
    cases n with
    | none => cases ho
    | some p => cases ho; exact (hi p rfl).1
  | bft st => rfl
  | abft st => exact congrArg (fun r => some (Iter.lift1 _ r)) (emitPeek_loc h fun o ho => Mach.abftPeek_in _ hi ho)
  | ancestors st =>
    refine congrArg (fun r => some (Iter.lift1 _ r)) (emitPeek_loc h fun o ho e he => ?_)
    subst he
    cases ho
    exact hi _ rfl
  | siblings st =>
    refine congrArg (fun r => some (Iter.lift1 _ r)) (emitPeek_loc h fun o ho e he => ?_)
    subst he
    cases st with
    | none => cases ho
    | some p => cases ho; exact (hi p rfl).1

theorem peekBack_loc (h : SameIn cap Q f g) {it : Iter} (hi : InIter Q it) : it.peekBack f = it.peekBack g := by
  cases it with
  | dft st =>
    refine congrArg (fun r => some (Iter.lift1 _ r)) (emitPeek_loc h fun o ho e he => ?_)
    subst he
    cases st with
    | none => cases ho
    | some p => cases ho; exact (hi p rfl).2
  | shallow st =>
    refine congrArg (fun r => some (Iter.lift1 _ r)) (emitPeek_loc h fun o ho e he => ?_)
    subst he
    obtain ⟨n, m⟩ := st
    cases n with
    | none => cases ho
    | some p => cases ho; exact (hi p rfl).2
  | bft st => rfl
  | abft st => rfl
  | ancestors st => rfl
  | siblings st =>
    refine congrArg (fun r => some (Iter.lift1 _ r)) (emitPeek_loc h fun o ho e he => ?_)
    subst he
    cases st with
    | none => cases ho
    | some p => cases ho; exact (hi p rfl).2

/-! ### A client that keeps iterators -/

theorem Build.poolExec_local (b : Build) (cap um : Nat) (h : SameIn cap Q f g) {p : List Iter} (hp : ∀ it ∈ p, InIter Q it)
    (c : PoolReq T) (hc : ∀ x ∈ c.ids, Q x) :
    (b.poolExec cap um (f, p) c).2 = (b.poolExec cap um (g, p) c).2 ∧
      (b.poolExec cap um (f, p) c).1.2 = (b.poolExec cap um (g, p) c).1.2 ∧
      SameIn cap Q (b.poolExec cap um (f, p) c).1.1 (b.poolExec cap um (g, p) c).1.1 ∧
      ∀ it ∈ (b.poolExec cap um (f, p) c).1.2, InIter Q it := by
  have hget : ∀ {i : Nat} {it : Iter}, p[i]? = some it → InIter Q it := fun e => hp _ (List.mem_of_getElem? e)
  have hset : ∀ {i : Nat} {it : Iter}, InIter Q it → ∀ j ∈ p.set i it, InIter Q j := fun hi j hj =>
    (List.mem_or_eq_of_mem_set hj).elim (hp j) (fun e => e ▸ hi)
  have happ : ∀ {it : Iter}, InIter Q it → ∀ j ∈ p ++ [it], InIter Q j := fun hi j hj => by
    rcases List.mem_append.1 hj with hj | hj
    · exact hp j hj
    · simp at hj; subst hj; exact hi
  cases c with
  | call q =>
    obtain ⟨h1, h2, _⟩ := b.exec_local cap um h q hc
    refine ⟨congrArg PoolAns.call h1, rfl, h2, ?_⟩
    dsimp only [poolExec]
    split
    · exact hp
    · intro _ hj; cases hj
  | start q =>
    have hs := start_loc um h q (hc q.node (by simp [PoolReq.ids]))
    dsimp only [poolExec, PoolReq.exec]
    rcases hs.split with ⟨e, e1, e2⟩ | ⟨it, e1, e2, hi⟩
    · rw [e1, e2]; exact ⟨rfl, rfl, h, hp⟩
    · rw [e1, e2]; exact ⟨rfl, rfl, h, happ hi⟩
  | next i =>
    dsimp only [poolExec]
    cases e : p[i]? with
    | none => exact ⟨rfl, rfl, h, hp⟩
    | some it =>
      dsimp only
      rcases (next_loc b um h (hget e)).split with ⟨e, e1, e2⟩ | ⟨q, e1, e2, hi⟩
      · rw [e1, e2]; exact ⟨rfl, rfl, h, hp⟩
      · rw [e1, e2]; exact ⟨rfl, rfl, h, hset hi⟩
  | nextBack i =>
    dsimp only [poolExec]
    cases e : p[i]? with
    | none => exact ⟨rfl, rfl, h, hp⟩
    | some it =>
      dsimp only
      rcases nextBack_loc b um h (hget e) with ⟨e1, e2⟩ | ⟨r, r', e1, e2, hr⟩
      · rw [e1, e2]; exact ⟨rfl, rfl, h, hp⟩
      · rw [e1, e2]
        rcases hr.split with ⟨e, e1, e2⟩ | ⟨q, e1, e2, hi⟩
        · rw [e1, e2]; exact ⟨rfl, rfl, h, hp⟩
        · rw [e1, e2]; exact ⟨rfl, rfl, h, hset hi⟩
  | peek i =>
    dsimp only [poolExec]
    cases e : p[i]? with
    | none => exact ⟨rfl, rfl, h, hp⟩
    | some it =>
      dsimp only
      rw [peek_loc b um h (hget e)]
      cases b.peek um g it with
      | none => exact ⟨rfl, rfl, h, hp⟩
      | some r => cases r <;> exact ⟨rfl, rfl, h, hp⟩
  | peekBack i =>
    dsimp only [poolExec, PoolReq.exec]
    cases e : p[i]? with
    | none => exact ⟨rfl, rfl, h, hp⟩
    | some it =>
      dsimp only
      rw [peekBack_loc h (hget e)]
      cases it.peekBack g with
      | none => exact ⟨rfl, rfl, h, hp⟩
      | some r => cases r <;> exact ⟨rfl, rfl, h, hp⟩
  | maxDepth i =>
    dsimp only [poolExec, PoolReq.exec]
    cases e : p[i]? with
    | none => exact ⟨rfl, rfl, h, hp⟩
    | some it =>
      dsimp only
      cases it.maxDepth <;> exact ⟨rfl, rfl, h, hp⟩
  | dup i =>
    dsimp only [poolExec, PoolReq.exec]
    cases e : p[i]? with
    | none => exact ⟨rfl, rfl, h, hp⟩
    | some it => exact ⟨rfl, rfl, h, happ (hget e)⟩

theorem Build.transcript_local (b : Build) (cap um : Nat) (client : List (PoolAns T) → PoolReq T) (n : Nat) :
    ∀ {f g : Forest T} {p : List Iter} (seen : List (PoolAns T)),
    (∀ k, k < n → ∀ x ∈ (client (b.poolTranscript cap um client k (f, p) seen)).ids, Q x) →
    SameIn cap Q f g → (∀ it ∈ p, InIter Q it) →
    b.poolTranscript cap um client n (f, p) seen = b.poolTranscript cap um client n (g, p) seen := by
  induction n with
  | zero => intro f g p seen _ _ _; rfl
  | succ n ih =>
    intro f g p seen hq h hp
    obtain ⟨h1, h2, h3, h4⟩ := b.poolExec_local cap um h hp (client seen) (hq 0 (Nat.succ_pos n))
    have hq' := fun k (hk : k < n) => hq (k + 1) (by omega)
    simp only [poolTranscript] at hq' ⊢
    rw [← h1]
    have hu : ∀ (u : Forest T × List Iter), u = (u.1, u.2) := fun _ => rfl
    rw [hu (b.poolExec cap um (g, p) (client seen)).1, ← h2]
    exact ih _ hq' h3 h4

end Treena
