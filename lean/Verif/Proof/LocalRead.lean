import Verif.Proof.LocalHier
/-! Locality of the traversers. -/
set_option autoImplicit false
namespace Treena

/-- Two equal outcomes whose value is `good`. -/
abbrev Eq2 {α : Type} (r r' : R α) (good : α → Prop) : Prop := r = r' ∧ ∀ a, r = .ok a → good a

theorem Eq2.split {α : Type} {r r' : R α} {good : α → Prop} (h : Eq2 r r' good) :
    (∃ e, r = .error e ∧ r' = .error e) ∨ ∃ a, r = .ok a ∧ r' = .ok a ∧ good a := by
  obtain ⟨h1, h2⟩ := h
  cases e : r with
  | error x => exact .inl ⟨x, rfl, by rw [← h1, e]⟩
  | ok a => exact .inr ⟨a, rfl, by rw [← h1, e], h2 a e⟩

theorem Eq2.ok {α : Type} {a : α} {good : α → Prop} (h : good a) : Eq2 (.ok a) (.ok a) good :=
  ⟨rfl, fun _ e => by cases e; exact h⟩
theorem Eq2.err {α : Type} {e : Fail} {good : α → Prop} : Eq2 (.error e : R α) (.error e) good :=
  ⟨rfl, fun _ e => by cases e⟩
theorem Eq2.const {α : Type} {r : R α} {good : α → Prop} (h : ∀ a, r = .ok a → good a) : Eq2 r r good := ⟨rfl, h⟩

/-- Split on the outcome of a part of the computation. -/
macro "lr " t:term " with " a:ident h:ident : tactic => `(tactic| (
  rcases Eq2.split $t with ⟨e, e1, e2⟩ | ⟨$a:ident, e1, e2, $h:ident⟩
  · try dsimp only at e1 e2
    try dsimp only
    rw [e1]
    try rw [e2]
    exact Eq2.err
  try dsimp only at e1 e2
  try dsimp only
  rw [e1]
  try rw [e2]
  try dsimp only
  clear e1 e2))

namespace Hier
variable {cap : Nat} {Q : Nat → Prop}

/-- The node of an optional event is in the part. -/
abbrev InE (Q : Nat → Prop) (o : Option (Ev Nat)) : Prop := ∀ e, o = some e → Q e.node

theorem InE.some {e : Ev Nat} (he : Q e.node) : InE Q (some e) := fun _ h => by cases h; exact he
theorem InE.none : InE Q none := fun _ h => by cases h

theorem expect_in {o : Option Nat} (ho : InO Q o) (msg : String) : Eq2 (expect o msg) (expect o msg) Q :=
  Eq2.const fun a h => by
    cases o with
    | none => cases h
    | some x => cases h; exact ho _ rfl

theorem travNbr_loc {x : Nat} (hx : Q x) : LocR (Same cap Q) (fun h => travNbr h x) (InN Q) := nbr_loc hx _

theorem stepFwd_loc {e : Ev Nat} (he : Q e.node) : LocR (Same cap Q) (fun h => Dft.stepFwd h e) (InE Q) :=
  fun h h' hs => by
  unfold Dft.stepFwd
  cases e with
  | opn id =>
    lr (travNbr_loc (x := id) he h h' hs) with nb hn
    lr (Eq2.const fun _ e => firstChild_in hn e) with o ho
    cases o with
    | none => exact Eq2.ok (InE.some he)
    | some c => exact Eq2.ok (InE.some (ho c rfl))
  | cls id =>
    lr (travNbr_loc (x := id) he h h' hs) with nb hn
    lr (Eq2.const fun _ e => nextSibling_in hn e) with o ho
    cases o with
    | some c => exact Eq2.ok (InE.some (ho c rfl))
    | none =>
      lr (Eq2.const fun _ e => getParent_in hn e) with p hp
      lr (expect_in hp "[consistency] parent node must exist since the node is not the root") with p hp
      exact Eq2.ok (InE.some hp)

theorem stepBack_loc {e : Ev Nat} (he : Q e.node) : LocR (Same cap Q) (fun h => Dft.stepBack h e) (InE Q) :=
  fun h h' hs => by
  unfold Dft.stepBack
  cases e with
  | cls id =>
    lr (travNbr_loc (x := id) he h h' hs) with nb hn
    lr (lastChild_loc hn h h' hs) with o ho
    cases o with
    | none => exact Eq2.ok (InE.some he)
    | some c => exact Eq2.ok (InE.some (ho c rfl))
  | opn id =>
    lr (travNbr_loc (x := id) he h h' hs) with nb hn
    lr (prevSibling_loc hn h h' hs) with o ho
    cases o with
    | some c => exact Eq2.ok (InE.some (ho c rfl))
    | none =>
      lr (Eq2.const fun _ e => getParent_in hn e) with p hp
      lr (expect_in hp "[consistency] parent node must exist since the node is not the root") with p hp
      exact Eq2.ok (InE.some hp)

/-- Both ends of a double-ended traverser are in the part. -/
abbrev InS {ε : Type} (P : ε → Prop) (st : Option (ε × ε)) : Prop := ∀ p, st = some p → P p.1 ∧ P p.2

theorem deNext_loc {ε : Type} [DecidableEq ε] {P : ε → Prop} {A : Hier → Hier → Prop} {step : Hier → ε → R (Option ε)}
    (hstep : ∀ e, P e → LocR A (fun h => step h e) (fun o => ∀ e', o = some e' → P e')) {st : Option (ε × ε)}
    (hst : InS P st) :
    LocR A (fun h => deNext (step h) st) (fun q => (∀ e, q.1 = some e → P e) ∧ InS P q.2) := fun h h' hs => by
  unfold deNext
  cases st with
  | none => exact Eq2.ok ⟨fun _ e => (by cases e), fun _ e => (by cases e)⟩
  | some p =>
    obtain ⟨a, b⟩ := p
    obtain ⟨ha, hb⟩ := hst _ rfl
    dsimp only
    split
    · exact Eq2.ok ⟨fun _ e => (by cases e; exact ha), fun _ e => (by cases e)⟩
    · lr (hstep a ha h h' hs) with o ho
      cases o with
      | none => exact Eq2.ok ⟨fun _ e => (by cases e; exact ha), fun _ e => (by cases e)⟩
      | some n => exact Eq2.ok ⟨fun _ e => (by cases e; exact ha), fun _ e => (by cases e; exact ⟨ho n rfl, hb⟩)⟩

theorem deNextBack_loc {ε : Type} [DecidableEq ε] {P : ε → Prop} {A : Hier → Hier → Prop} {step : Hier → ε → R (Option ε)}
    (hstep : ∀ e, P e → LocR A (fun h => step h e) (fun o => ∀ e', o = some e' → P e')) {st : Option (ε × ε)}
    (hst : InS P st) :
    LocR A (fun h => deNextBack (step h) st) (fun q => (∀ e, q.1 = some e → P e) ∧ InS P q.2) := fun h h' hs => by
  unfold deNextBack
  cases st with
  | none => exact Eq2.ok ⟨fun _ e => (by cases e), fun _ e => (by cases e)⟩
  | some p =>
    obtain ⟨a, b⟩ := p
    obtain ⟨ha, hb⟩ := hst _ rfl
    dsimp only
    split
    · exact Eq2.ok ⟨fun _ e => (by cases e; exact hb), fun _ e => (by cases e)⟩
    · lr (hstep b hb h h' hs) with o ho
      cases o with
      | none => exact Eq2.ok ⟨fun _ e => (by cases e; exact hb), fun _ e => (by cases e)⟩
      | some n => exact Eq2.ok ⟨fun _ e => (by cases e; exact hb), fun _ e => (by cases e; exact ⟨ha, ho n rfl⟩)⟩

theorem dftNext_loc {st : Dft.St} (hst : InS (fun e : Ev Nat => Q e.node) st) :
    LocR (Same cap Q) (fun h => Dft.next h st) (fun q => InE Q q.1 ∧ InS (fun e : Ev Nat => Q e.node) q.2) :=
  deNext_loc (fun _ he => stepFwd_loc he) hst
theorem dftNextBack_loc {st : Dft.St} (hst : InS (fun e : Ev Nat => Q e.node) st) :
    LocR (Same cap Q) (fun h => Dft.nextBack h st) (fun q => InE Q q.1 ∧ InS (fun e : Ev Nat => Q e.node) q.2) :=
  deNextBack_loc (fun _ he => stepBack_loc he) hst

theorem dftTop_loc {x : Nat} (hx : Q x) :
    LocR (Same cap Q) (fun h => Dft.withToplevel x h) (InS (fun e : Ev Nat => Q e.node)) := fun h h' hs => by
  unfold Dft.withToplevel
  dsimp only
  rw [hs.alive hx]
  split
  · exact Eq2.err
  · exact Eq2.ok fun _ e => (by cases e; exact ⟨hx, hx⟩)

/-! ### Siblings -/

theorem sibFwd_loc {x : Nat} (hx : Q x) : LocR (Same cap Q) (fun h => Siblings.stepFwd h x) (InO Q) := fun h h' hs => by
  unfold Siblings.stepFwd
  lr (travNbr_loc hx h h' hs) with nb hn
  exact Eq2.const fun _ e => nextSibling_in hn e
theorem sibBack_loc {x : Nat} (hx : Q x) : LocR (Same cap Q) (fun h => Siblings.stepBack h x) (InO Q) := fun h h' hs => by
  unfold Siblings.stepBack
  lr (travNbr_loc hx h h' hs) with nb hn
  exact prevSibling_loc hn h h' hs
theorem sibNext_loc {st : Siblings.St} (hst : InS Q st) :
    LocR (Same cap Q) (fun h => Siblings.next h st) (fun q => InO Q q.1 ∧ InS Q q.2) :=
  deNext_loc (fun _ he => sibFwd_loc he) hst
theorem sibNextBack_loc {st : Siblings.St} (hst : InS Q st) :
    LocR (Same cap Q) (fun h => Siblings.nextBack h st) (fun q => InO Q q.1 ∧ InS Q q.2) :=
  deNextBack_loc (fun _ he => sibBack_loc he) hst

theorem withParent_loc {x : Nat} (hx : Q x) : LocR (Same cap Q) (fun h => Siblings.withParent x h) (InS Q) :=
  fun h h' hs => by
  unfold Siblings.withParent
  lr (nbr_loc hx "[precondition] the node being traversed must be alive" h h' hs) with nb hn
  exact firstLastChild_loc hn h h' hs

theorem withFirst_loc {x : Nat} (hx : Q x) : LocR (Same cap Q) (fun h => Siblings.withFirstSibling x h) (InS Q) :=
  fun h h' hs => by
  unfold Siblings.withFirstSibling
  lr (nbr_loc hx "[precondition] the node being traversed must be alive" h h' hs) with nb hn
  lr (Eq2.const fun _ e => getParent_in hn e) with p hp
  cases p with
  | none => exact Eq2.ok fun _ e => (by cases e; exact ⟨hx, hx⟩)
  | some p =>
    have hp := hp p rfl
    simp only [Option.bind]
    rw [← hs.links p hp]
    cases e3 : h.neighbors p with
    | none => exact Eq2.ok fun _ e => (by cases e; exact ⟨hx, hx⟩)
    | some pn =>
      lr (lastChild_loc (hs.closed p hp pn e3) h h' hs) with lo hlo
      lr (expect_in hlo "[consistency] the parent must have children `first`") with l hl
      exact Eq2.ok fun _ e => (by cases e; exact ⟨hx, hl⟩)

theorem withLast_loc {x : Nat} (hx : Q x) : LocR (Same cap Q) (fun h => Siblings.withLastSibling x h) (InS Q) :=
  fun h h' hs => by
  unfold Siblings.withLastSibling
  lr (nbr_loc hx "[precondition] the node being traversed must be alive" h h' hs) with nb hn
  lr (Eq2.const fun _ e => getParent_in hn e) with p hp
  cases p with
  | none => exact Eq2.ok fun _ e => (by cases e; exact ⟨hx, hx⟩)
  | some p =>
    have hp := hp p rfl
    simp only [Option.bind]
    rw [← hs.links p hp]
    cases e3 : h.neighbors p with
    | none => exact Eq2.ok fun _ e => (by cases e; exact ⟨hx, hx⟩)
    | some pn =>
      lr (Eq2.const fun _ e => firstChild_in (hs.closed p hp pn e3) e) with lo hlo
      lr (expect_in hlo "[consistency] the parent must have children `last`") with l hl
      exact Eq2.ok fun _ e => (by cases e; exact ⟨hl, hx⟩)

/-! ### The traverser that tolerates modifications -/

theorem safeNew_loc {x : Nat} (hx : Q x) : LocR (Same cap Q) (fun h => Safe.new x h) (fun st => InE Q st.next ∧ Q st.root) :=
  fun h h' hs => by
  unfold Safe.new
  dsimp only
  rw [hs.alive hx]
  split
  · exact Eq2.err
  · exact Eq2.ok ⟨InE.some hx, hx⟩

theorem nextOfNext_loc (root : Nat) {e : Ev Nat} (he : Q e.node) :
    LocR (Same cap Q) (fun h => Safe.nextOfNext h root e) (InE Q) := fun h h' hs => by
  unfold Safe.nextOfNext
  dsimp only
  split
  · exact Eq2.ok InE.none
  · cases e with
    | opn id =>
      lr (nbr_loc (x := id) he "[consistency] the current node must be alive" h h' hs) with nb hn
      lr (Eq2.const fun _ e => firstChild_in hn e) with o ho
      cases o with
      | none => exact Eq2.ok (InE.some he)
      | some c => exact Eq2.ok (InE.some (ho c rfl))
    | cls id =>
      lr (nbr_loc (x := id) he "[consistency] the current node must be alive" h h' hs) with nb hn
      lr (Eq2.const fun _ e => nextSibling_in hn e) with o ho
      cases o with
      | some c => exact Eq2.ok (InE.some (ho c rfl))
      | none =>
        dsimp only
        split
        · exact Eq2.err
        · lr (Eq2.const fun _ e => getParent_in hn e) with p hp
          lr (expect_in hp "[consistency] parent node must exist since the node is not the root") with p hp
          exact Eq2.ok (InE.some hp)

theorem safeNext_loc {st : Safe.St} (hst : InE Q st.next ∧ Q st.root) :
    LocR (Same cap Q) (fun h => Safe.next h st) (fun q => InE Q q.1 ∧ InE Q q.2.next ∧ Q q.2.root) := fun h h' hs => by
  unfold Safe.next
  dsimp only
  cases hn : st.next with
  | none => exact Eq2.ok ⟨InE.none, hst⟩
  | some e =>
    dsimp only
    lr (nextOfNext_loc st.root (hst.1 e hn) h h' hs) with nn hnn
    exact Eq2.ok ⟨InE.some (hst.1 e hn), hnn, hst.2⟩

/-! ### Traversal with a limit, and level by level -/

theorem shFwd_loc (max : Option Nat) {e : Ev Nat × Nat} (he : Q e.1.node) :
    LocR (Same cap Q) (fun h => Shallow.stepFwd h max e) (fun o => ∀ e', o = some e' → Q e'.1.node) := fun h h' hs => by
  obtain ⟨e, d⟩ := e
  have hsome : ∀ {e : Ev Nat} {d : Nat}, Q e.node → ∀ e', some (e, d) = some e' → Q e'.1.node :=
    fun he _ e => by cases e; exact he
  unfold Shallow.stepFwd
  cases e with
  | opn id =>
    dsimp only
    split
    · exact Eq2.ok (hsome he)
    · lr (travNbr_loc (x := id) he h h' hs) with nb hn
      lr (Eq2.const fun _ e => firstChild_in hn e) with o ho
      cases o with
      | none => exact Eq2.ok (hsome he)
      | some c => exact Eq2.ok (hsome (ho c rfl))
  | cls id =>
    lr (travNbr_loc (x := id) he h h' hs) with nb hn
    lr (Eq2.const fun _ e => nextSibling_in hn e) with o ho
    cases o with
    | some c => exact Eq2.ok (hsome (ho c rfl))
    | none =>
      lr (Eq2.const fun _ e => getParent_in hn e) with p hp
      lr (expect_in hp "[consistency] parent node must exist since the node is not the root") with p hp
      cases Shallow.depthPred d with
      | error e => exact Eq2.err
      | ok d' => exact Eq2.ok (hsome hp)

theorem shBack_loc (max : Option Nat) {e : Ev Nat × Nat} (he : Q e.1.node) :
    LocR (Same cap Q) (fun h => Shallow.stepBack h max e) (fun o => ∀ e', o = some e' → Q e'.1.node) := fun h h' hs => by
  obtain ⟨e, d⟩ := e
  have hsome : ∀ {e : Ev Nat} {d : Nat}, Q e.node → ∀ e', some (e, d) = some e' → Q e'.1.node :=
    fun he _ e => by cases e; exact he
  unfold Shallow.stepBack
  cases e with
  | cls id =>
    dsimp only
    split
    · exact Eq2.ok (hsome he)
    · lr (travNbr_loc (x := id) he h h' hs) with nb hn
      lr (lastChild_loc hn h h' hs) with o ho
      cases o with
      | none => exact Eq2.ok (hsome he)
      | some c => exact Eq2.ok (hsome (ho c rfl))
  | opn id =>
    lr (travNbr_loc (x := id) he h h' hs) with nb hn
    lr (prevSibling_loc hn h h' hs) with o ho
    cases o with
    | some c => exact Eq2.ok (hsome (ho c rfl))
    | none =>
      lr (Eq2.const fun _ e => getParent_in hn e) with p hp
      lr (expect_in hp "[consistency] parent node must exist since the node is not the root") with p hp
      cases Shallow.depthPred d with
      | error e => exact Eq2.err
      | ok d' => exact Eq2.ok (hsome hp)

/-- The state of a shallow traverser is in the part. -/
abbrev InSh (Q : Nat → Prop) (st : Shallow.St) : Prop := InS (fun e : Ev Nat × Nat => Q e.1.node) st.next

theorem shNext_loc {st : Shallow.St} (hst : InSh Q st) :
    LocR (Same cap Q) (fun h => Shallow.next h st) (fun q => (∀ e, q.1 = some e → Q e.1.node) ∧ InSh Q q.2) := fun h h' hs => by
  unfold Shallow.next
  lr (deNext_loc (A := Same cap Q) (fun _ he => shFwd_loc st.maxDepth he) hst h h' hs) with q hq
  exact Eq2.ok hq
theorem shNextBack_loc {st : Shallow.St} (hst : InSh Q st) :
    LocR (Same cap Q) (fun h => Shallow.nextBack h st) (fun q => (∀ e, q.1 = some e → Q e.1.node) ∧ InSh Q q.2) := fun h h' hs => by
  unfold Shallow.nextBack
  lr (deNextBack_loc (A := Same cap Q) (fun _ he => shBack_loc st.maxDepth he) hst h h' hs) with q hq
  exact Eq2.ok hq

theorem shTop_loc (um : Nat) {x : Nat} (hx : Q x) (max : Option Nat) :
    LocR (Same cap Q) (fun h => Shallow.withToplevelAndMaxDepth um x h max) (InSh Q) := fun h h' hs => by
  unfold Shallow.withToplevelAndMaxDepth
  dsimp only
  rw [hs.alive hx]
  split
  · exact Eq2.err
  · exact Eq2.ok fun _ e => (by cases e; exact ⟨hx, hx⟩)

theorem nextInner_loc (depth : Nat) : ∀ (fuel : Nat) {st : Shallow.St}, InSh Q st →
    LocR (Same cap Q) (fun h => Bft.nextInner h depth fuel st) (fun q => InO Q q.1 ∧ InSh Q q.2)
  | 0, _, _ => fun _ _ _ => Eq2.err
  | fuel + 1, st, hst => fun h h' hs => by
    unfold Bft.nextInner
    lr (shNext_loc hst h h' hs) with q hq
    obtain ⟨o, st'⟩ := q
    cases o with
    | none => exact Eq2.ok ⟨InO.none, hq.2⟩
    | some e =>
      obtain ⟨ev, d⟩ := e
      dsimp only
      split
      · cases ev with
        | opn id => exact Eq2.ok ⟨InO.some (hq.1 _ rfl), hq.2⟩
        | cls id => exact nextInner_loc depth fuel hq.2 h h' hs
      · exact nextInner_loc depth fuel hq.2 h h' hs

/-- The state of a breadth-first traverser is in the part. -/
abbrev InB (Q : Nat → Prop) (st : Bft.St) : Prop := InSh Q st.inner ∧ InO Q st.root

theorem bftTop_loc (um : Nat) {x : Nat} (hx : Q x) : LocR (Same cap Q) (fun h => Bft.withToplevel um x h) (InB Q) :=
  fun h h' hs => by
  unfold Bft.withToplevel
  dsimp only
  rw [hs.alive hx]
  split
  · exact Eq2.err
  · lr (shTop_loc um hx (some 0) h h' hs) with st hst
    exact Eq2.ok ⟨hst, InO.some hx⟩

theorem bftNext_loc (um : Nat) {st : Bft.St} (hst : InB Q st) :
    LocR (Same cap Q) (fun h => Bft.next um h st) (fun q => (∀ e, q.1 = some e → Q e.1) ∧ InB Q q.2) := fun h h' hs => by
  have hfuel : ∀ d, Bft.fuel h d = Bft.fuel h' d := fun d => by unfold Bft.fuel; rw [hs.size]
  have hsome : ∀ {x d : Nat}, Q x → ∀ e', some (x, d) = some e' → Q e'.1 := fun he _ e => by cases e; exact he
  unfold Bft.next
  dsimp only
  cases hr : st.root with
  | none => exact Eq2.ok ⟨fun _ e => (by cases e), hst⟩
  | some root =>
    have hroot := hst.2 root hr
    dsimp only
    rw [hfuel]
    lr (nextInner_loc st.depth (Bft.fuel h' st.depth) hst.1 h h' hs) with q hq
    obtain ⟨o, inner⟩ := q
    cases o with
    | some id => exact Eq2.ok ⟨hsome (hq.1 id rfl), hq.2, InO.some hroot⟩
    | none =>
      dsimp only
      rw [hfuel]
      lr (shTop_loc um hroot (some (st.depth + 1)) h h' hs) with inner1 hin
      lr (nextInner_loc (st.depth + 1) (Bft.fuel h' (st.depth + 1)) hin h h' hs) with q hq
      obtain ⟨o, inner2⟩ := q
      cases o with
      | some id => exact Eq2.ok ⟨hsome (hq.1 id rfl), hq.2, InO.some hroot⟩
      | none => exact Eq2.ok ⟨fun _ e => (by cases e), hq.2, InO.none⟩

/-- The queue is in the part. -/
abbrev InQ (Q : Nat → Prop) (l : List ABft.QEv) : Prop := ∀ x, ABft.QEv.node x ∈ l → Q x

theorem abftTop_loc {x : Nat} (hx : Q x) : LocR (Same cap Q) (fun h => ABft.withToplevel x h) (fun st => InQ Q st.events) :=
  fun h h' hs => by
  unfold ABft.withToplevel
  dsimp only
  rw [hs.alive hx]
  split
  · exact Eq2.err
  · exact Eq2.ok fun y hy => (by simp at hy; subst hy; exact hx)

theorem pushChildren_loc : ∀ (fuel : Nat) {o : Option Nat} {l : List ABft.QEv}, InO Q o → InQ Q l →
    LocR (Same cap Q) (fun h => ABft.pushChildren h fuel o l) (InQ Q)
  | _, none, l, _, hl => fun _ _ _ => by unfold ABft.pushChildren; exact Eq2.ok hl
  | 0, some _, _, _, _ => fun _ _ _ => by unfold ABft.pushChildren; exact Eq2.err
  | fuel + 1, some c, l, ho, hl => fun h h' hs => by
    unfold ABft.pushChildren
    lr (nbr_loc (ho c rfl) "[consistency] the node to be traversed must be alive" h h' hs) with nb hn
    lr (Eq2.const fun _ e => nextSibling_in hn e) with n hn'
    refine pushChildren_loc fuel hn' (fun y hy => ?_) h h' hs
    rcases List.mem_append.1 hy with hy | hy
    · exact hl y hy
    · simp at hy; subst hy; exact ho _ rfl

theorem nextLoop_loc : ∀ (fuel : Nat) {st : ABft.St}, InQ Q st.events →
    LocR (Same cap Q) (fun h => ABft.nextLoop h fuel st) (fun q => (∀ e, q.1 = some e → Q e.1) ∧ InQ Q q.2.events)
  | 0, _, _ => fun _ _ _ => Eq2.err
  | fuel + 1, st, hst => fun h h' hs => by
    have hfuel : h.loopFuel = h'.loopFuel := by unfold loopFuel; rw [hs.size]
    unfold ABft.nextLoop
    dsimp only
    cases he : st.events with
    | nil => exact Eq2.ok ⟨fun _ e => (by cases e), hst⟩
    | cons ev rest =>
      cases ev with
      | incrementDepth =>
        dsimp only
        split
        · exact Eq2.ok ⟨fun _ e => (by cases e), fun _ hy => (by cases hy)⟩
        · refine nextLoop_loc fuel (fun y hy => ?_) h h' hs
          rcases List.mem_append.1 hy with hy | hy
          · exact hst y (by rw [he]; exact List.mem_cons_of_mem _ hy)
          · simp at hy
      | node id =>
        have hid : Q id := hst id (by rw [he]; exact List.mem_cons_self)
        lr (nbr_loc hid "[consistency] the node to be traversed must be alive" h h' hs) with nb hn
        lr (Eq2.const fun _ e => firstChild_in hn e) with fc hfc
        rw [hfuel]
        lr (pushChildren_loc h'.loopFuel hfc (l := rest) (fun y hy => hst y (by rw [he]; exact List.mem_cons_of_mem _ hy))
          h h' hs) with q hq
        exact Eq2.ok ⟨fun _ e => (by cases e; exact hid), hq⟩

theorem abftNext_loc {st : ABft.St} (hst : InQ Q st.events) :
    LocR (Same cap Q) (fun h => ABft.next h st) (fun q => (∀ e, q.1 = some e → Q e.1) ∧ InQ Q q.2.events) :=
  nextLoop_loc _ hst

end Hier
end Treena
