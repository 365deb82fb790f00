import Verif.Proof.Hang
import Verif.Proof.HangWhy
import Verif.Props.Session
import Verif.Props.Local
import Verif.Props.Careless
import Verif.Props.Failures
/-!
# C89: which calls can hang

The answer `hung` of a call means that it never returns: by the fuel lemmas of `Proof/Fuel*.lean`, the fuel of a modelled
loop is exhausted only if the loop of the code goes on for ever.
-/
set_option autoImplicit false

namespace Treena
variable {T : Type} {f : Forest T} {s : Shape} {cap um : Nat}

/-- **C89**: a call without a loop over links never hangs, in no forest whatsoever (reachable or not). -/
theorem C89_brief (q : Req T) (hq : q.Brief) (f : Forest T) : (q.exec cap um f).2 ≠ .hung := by
  cases q with
  | alive x => nofun
  | data x => nofun
  | link x k => simp only [Req.exec]; split <;> first | exact ofR_ends (Halts.linkOf _ _) nofun | nofun
  | ends x => simp only [Req.exec]; split <;> first | exact ofR_ends (Halts.firstLastChildId _) nofun | nofun
  | near x k => simp only [Req.exec]; split <;> first | exact ofR_ends (Halts.nearOf _ _) nofun | nofun
  | nearEnds x => simp only [Req.exec]; split <;> first | exact ofR_ends (Halts.nearEndsOf _) nofun | nofun
  | dft x ds => exact ofR_ends (Halts.iterate Halts.dftNext Halts.dftNextBack (Halts.depthFirstTraverse _) _) nofun
  | shallow x m ds => exact ofR_ends (Halts.iterate Halts.shallowNext Halts.shallowNextBack (Halts.shallowDepthFirstTraverse _ _) _) nofun
  | ancestors x self n =>
    refine ofR_ends (Halts.iterate1 Halts.ancestorsNext ?_ _) nofun
    cases self
    · exact Halts.ancestors x
    · exact Halts.ancestorsOrSelf x
  | row x k ds => exact ofR_ends (Halts.iterate Halts.siblingsNext Halts.siblingsNextBack (Halts.rowOf _ _) _) nofun
  | createRoot d =>
    refine ofRes_ends ?_ nofun
    refine HaltsM.bind (HaltsM.onHier ?_) fun n g => HaltsM.bind nofun fun a g => ?_
    · unfold Hier.createRoot
      split <;> nofun
    · split
      · nofun
      · exact HaltsM.bind nofun fun _ _ => HaltsM.pure _ _
  | setData x v => refine ofRes_ends ?_ nofun; unfold Forest.setData; split <;> nofun
  | detach x => exact ofRes_ends (HaltsM.onHier (HaltsM.detach _ _)) nofun
  | _ => exact hq.elim

/-- **C89**: making an iterator never hangs, in no forest whatsoever. -/
theorem C89_start (q : IterReq) (f : Forest T) (its : List Iter) :
    ((PoolReq.start q : PoolReq T).exec cap um (f, its)).2 ≠ .hung := by
  have key : Halts (Iter.start um f q) := by
    have made : ∀ {σ : Type} {k : σ → Iter} {r : R σ}, Halts r → Halts (Iter.made k r) := by
      intro σ k r hr
      cases r with
      | ok a => nofun
      | error e => exact Halts.error hr rfl
    cases q with
    | dft x => exact made (Halts.depthFirstTraverse x)
    | shallow x m => exact made (Halts.shallowDepthFirstTraverse x m)
    | bft x => exact made (Halts.breadthFirstTraverse x)
    | abft x => exact made (Halts.allocatingBreadthFirstTraverse x)
    | ancestors x self =>
      refine made ?_
      cases self
      · exact Halts.ancestors x
      · exact Halts.ancestorsOrSelf x
    | row x k => exact made (Halts.rowOf x k)
  simp only [PoolReq.exec]
  split
  · nofun
  · rename_i e he
    cases e with
    | panic m => nofun
    | diverge => exact absurd he key

/-- **C89**: looking at the next item of an iterator (at either end), asking for its depth limit and copying it never hang,
in no forest whatsoever and with no iterator whatsoever. -/
theorem C89_peek (f : Forest T) (its : List Iter) (i : Nat) :
    ∀ c ∈ [PoolReq.peek i, .peekBack i, .maxDepth i, .dup i], ((c : PoolReq T).exec cap um (f, its)).2 ≠ .hung := by
  have pk : ∀ {ι : Type} {idOf : ι → Nat} {g : ι → Item} (r : R (Option ι)), Halts r → Iter.lift1 g (f.emitPeek idOf r) ≠ .error .diverge := by
    intro ι idOf g r hr
    have := Halts.emitPeek (f := f) (idOf := idOf) hr
    cases e : f.emitPeek idOf r with
    | ok o => nofun
    | error e' => rw [e] at this; exact Halts.error this rfl
  have fin : ∀ (o : Option (R (Option Item))) (st : Forest T × List Iter), (∀ r, o = some r → r ≠ .error .diverge) →
      (match o with | some (.ok o) => (st, (.item o : PoolAns T)) | some (.error e) => (st, .ofFail e) | none => (st, .noMethod)).2 ≠ .hung := by
    intro o st ho
    cases o with
    | none => nofun
    | some r =>
      cases r with
      | ok a => nofun
      | error e =>
        cases e with
        | panic m => nofun
        | diverge => exact absurd rfl (ho _ rfl)
  intro c hc
  simp only [List.mem_cons, List.not_mem_nil, or_false] at hc
  rcases hc with rfl | rfl | rfl | rfl <;> simp only [PoolReq.exec] <;> split <;> try (intro e; cases e; done)
  · refine fin _ _ fun r hr => ?_
    rename_i it _
    cases it <;> cases hr <;> refine pk _ ?_ <;> first | exact Halts.ok _ | skip
    unfold ABft.peek
    repeat' (first | (intro e; cases e; done) | split)
  · refine fin _ _ fun r hr => ?_
    rename_i it _
    cases it <;> cases hr <;> exact pk _ (Halts.ok _)
  · split <;> nofun

/-- **C89**: `next` and `next_back` of a `DepthFirstTraverse`, `ShallowDepthFirstTraverse`, `Ancestors` or `Siblings` never
hang, in no forest whatsoever and with no iterator whatsoever. -/
theorem C89_next (f : Forest T) (its : List Iter) {i : Nat} {it : Iter} (hi : its[i]? = some it) (hb : it.Brief) :
    ∀ c ∈ [PoolReq.next i, .nextBack i], ((c : PoolReq T).exec cap um (f, its)).2 ≠ .hung := by
  have lf : ∀ {ι σ : Type} {g : ι → Item} {k : σ → Iter} {r : R (Option ι × σ)}, Halts r → Halts (Iter.lift g k r) := by
    intro ι σ g k r hr
    cases r with
    | ok a => nofun
    | error e => exact Halts.error hr rfl
  intro c hc
  simp only [List.mem_cons, List.not_mem_nil, or_false] at hc
  rcases hc with rfl | rfl <;> simp only [PoolReq.exec, hi]
  · have key : Halts (it.next um f) := by
      cases it with
      | dft st => exact lf (Halts.dftNext st)
      | shallow st => exact lf (Halts.shallowNext st)
      | ancestors st => exact lf (Halts.ancestorsNext st)
      | siblings st => exact lf (Halts.siblingsNext st)
      | _ => exact hb.elim
    split
    · nofun
    · rename_i e he
      cases e with
      | panic m => nofun
      | diverge => exact absurd he key
  · split
    · nofun
    · rename_i e he
      cases e with
      | panic m => nofun
      | diverge =>
        exfalso
        cases it with
        | dft st => exact lf (Halts.dftNextBack st) (Option.some.inj he)
        | shallow st => exact lf (Halts.shallowNextBack st) (Option.some.inj he)
        | siblings st => exact lf (Halts.siblingsNextBack st) (Option.some.inj he)
        | _ => cases he
    · nofun

theorem insert_ends (hm : Models f s) (x : Nat) (d : InsertAs) : HaltsM (Forest.insert x d f) := by
  rcases insert_outcomes hm x d with ⟨f', h⟩ | (⟨e, h⟩ | ⟨msg, h⟩) | ⟨P, rfl, hk⟩
  · rw [h]; nofun
  · rw [h]; nofun
  · rw [h]; nofun
  · obtain ⟨msg, f', h, _⟩ := (C08_insert_in_place_details hm (P := P) (x := x) (y := 0) (p := 0) (A := []) (B := [])).2.2.1 hk
    rw [h]; nofun

/-- **C89**: in a consistent forest no call hangs, whether it is permitted or not. -/
theorem C89_consistent (hc : Consistent f) (q : Req T) : (q.exec cap um f).2 ≠ .hung := by
  obtain ⟨s, hm⟩ := hc
  obtain ⟨r, hr⟩ := plain_exists hm
  cases hy : r.exec cap um q with
  | some y => rw [(hr.exec cap um q hy).1]; exact plain_answers hy
  | none =>
    cases q with
    | insert x dest => exact ofRes_ends (insert_ends hm x dest) fun a => by unfold Ans.ofExcept; split <;> nofun
    | tryAdopt self x dest =>
      simp only [Req.exec]
      split
      · exact ofRes_ends (insert_ends hm x _) fun a => by unfold Ans.ofExcept; split <;> nofun
      · nofun
    | adopt self x dest =>
      simp only [Req.exec]
      split
      · refine ofRes_ends (HaltsM.bind (insert_ends hm x _) fun a g => ?_) nofun
        cases a <;> nofun
      · nofun
    | remove x limit =>
      by_cases hx : s.alive x = true
      · obtain ⟨t, ht, rfl⟩ := Tree.exists_tree hm.valid hx
        obtain ⟨f', h⟩ := removeHooked_spec (Req.record limit) hm ht hx []
        simp only [Req.exec]
        split at h
        · rw [h.1]; nofun
        · rw [h.1]; nofun
      · simp only [Req.exec]
        rw [Forest.removeHooked, removeWith_dead _ hm (by simpa using hx)]
        nofun
    | _ => simp [Plain.exec] at hy <;> (try split at hy) <;> cases hy

/-- **C89**: after any history whatsoever, a call that is given no live tainted node (C69) never hangs. -/
theorem C89_untainted (cap um : Nat) (ops : List (Op T)) (q : Req T)
    (hq : ∀ x ∈ q.ids, (Op.run cap Forest.new ops).isAlive x = true → ¬ taint cap Forest.new (fun _ => False) ops x) :
    (q.exec cap um (Op.run cap Forest.new ops)).2 ≠ .hung := by
  rw [C69_calls cap um ops q hq]
  obtain ⟨s, _, hm, _⟩ := C69_the_rest_is_sound cap ops
  exact C89_consistent ⟨s, hm⟩ q

/-- **C89**: after any history whatsoever, building a tree with a `NestTreeBuilder` or a `ChainTreeBuilder` never hangs. -/
theorem C89_builders (h : Reachable cap f) (q : Req T) (hq : q.Builds) : (q.exec cap um f).2 ≠ .hung := by
  obtain ⟨ops, rfl⟩ := h
  refine C89_untainted cap um ops q fun x hx => ?_
  cases q <;> first | exact hq.elim | cases hx

/-- **C89**: whatever happened before, `insert(x, dest)` hangs only if the ancestors of the destination go round for ever
without meeting `x`. -/
theorem C89_insert_cause (hc : Coherent f) {x : Nat} {dest : InsertAs} {f' : Forest T} (h : Forest.insert x dest f = .fail .diverge f') :
    ∃ p, Under f p dest ∧ EndlessUp f x p := by
  revert h
  suffices HangsIf (∃ p, Under f p dest ∧ EndlessUp f x p) (Forest.insert x dest f) from this f'
  refine HangsIf.onHier ?_
  have single : ∀ {p : Nat} {a b : Option Nat}, Under f p dest → HangsIf (∃ p, Under f p dest ∧ EndlessUp f x p)
      ((M.read (fun h : Hier => h.rangeSingle x) >>= fun r => Hier.transplant r.1 r.2 p a b) f.hier) := by
    intro p a b hp
    refine HangsIf.read (fun e => ?_) fun r hr => ?_
    · unfold Hier.rangeSingle at e; split at e <;> cases e
    · unfold Hier.rangeSingle at hr
      split at hr <;> cases hr
      intro s e
      exact ⟨p, hp, transplant_hangs hc a b s e⟩
  have nb : ∀ {y : Nat} {msg : String}, expect (f.hier.neighbors y) msg = .error .diverge → ∃ p, Under f p dest ∧ EndlessUp f x p :=
    fun e => absurd e (Halts.expect _ _)
  cases dest with
  | firstChildOf p =>
    exact HangsIf.read nb fun n _ => HangsIf.read (fun e => absurd e (Halts.firstChild _)) fun o _ => single rfl
  | lastChildOf p =>
    exact HangsIf.read nb fun n _ => HangsIf.read (fun e => absurd e (Halts.lastChild _)) fun o _ => single rfl
  | previousSiblingOf y =>
    show HangsIf _ (Hier.insertBefore x y f.hier)
    unfold Hier.insertBefore
    split
    · exact HangsIf.of nofun
    · refine HangsIf.read nb fun n hn => HangsIf.read (fun e => absurd e (Halts.getParent _)) fun o ho =>
        HangsIf.read (fun e => absurd e (Halts.expect _ _)) fun p hp => HangsIf.read (fun e => absurd e (Halts.prevSibling _)) fun a _ => single ?_
      cases o with
      | none => cases hp
      | some q =>
        cases hp
        show f.parentId y = _
        unfold Forest.parentId Forest.nbr
        cases h' : f.hier.neighbors y with
        | none => rw [h'] at hn; cases hn
        | some n' => rw [h'] at hn; cases hn; exact ho
  | nextSiblingOf y =>
    show HangsIf _ (Hier.insertAfter x y f.hier)
    unfold Hier.insertAfter
    split
    · exact HangsIf.of nofun
    · refine HangsIf.read nb fun n hn => HangsIf.read (fun e => absurd e (Halts.getParent _)) fun o ho =>
        HangsIf.read (fun e => absurd e (Halts.expect _ _)) fun p hp => HangsIf.read (fun e => absurd e (Halts.nextSibling _)) fun a _ => single ?_
      cases o with
      | none => cases hp
      | some q =>
        cases hp
        show f.parentId y = _
        unfold Forest.parentId Forest.nbr
        cases h' : f.hier.neighbors y with
        | none => rw [h'] at hn; cases hn
        | some n' => rw [h'] at hn; cases hn; exact ho

/-- **C89**: whatever happened before, `create_insert(data, dest)` hangs only if the ancestors of the destination go round for
ever. -/
theorem C89_create_insert_cause (hc : Coherent f) {d : T} {dest : InsertAs} {f' : Forest T}
    (h : Forest.createInsert cap d dest f = .fail .diverge f') : ∃ p, Under f p dest ∧ EndlessUp f f.issued p := by
  revert h
  suffices HangsIf (∃ p, Under f p dest ∧ EndlessUp f f.issued p) (Forest.createInsert cap d dest f) from this f'
  unfold Forest.createInsert Forest.createInsertMomo
  refine HangsIf.read nofun fun v hv => ?_
  cases v with
  | false => exact HangsIf.of nofun
  | true =>
    have hv' : dest.toAnchor < f.hier.nbrs.length := by
      simpa [Hier.isValid] using Except.ok.inj hv
    simp only [Bool.not_true, Bool.false_eq_true, if_false]
    by_cases hcap : f.hier.nbrs.length < cap
    · have e1 : Forest.onHier (Hier.createRoot cap) f =
          .ok f.hier.nbrs.length ⟨⟨f.hier.nbrs ++ [Neighbors.newRoot f.hier.nbrs.length]⟩, f.data⟩ := by
        simp [Forest.onHier, M.zoom, Hier.createRoot, Hier.fromUsize, hcap]
      generalize hg : (⟨⟨f.hier.nbrs ++ [Neighbors.newRoot f.hier.nbrs.length]⟩, f.data ++ [some d]⟩ : Forest T) = g
      have e2 : Forest.pushData d (⟨⟨f.hier.nbrs ++ [Neighbors.newRoot f.hier.nbrs.length]⟩, f.data⟩ : Forest T) = .ok () g := by
        rw [← hg]; rfl
      have hgc : Coherent g := by
        subst hg
        refine ⟨by simp [hc.len], fun x => ?_⟩
        have := hc.live x
        have hlen := hc.len
        unfold Forest.isAlive Hier.isAlive at this ⊢
        rcases Nat.lt_trichotomy x f.hier.nbrs.length with hl | rfl | hl
        · rw [List.getElem?_append_left hl, List.getElem?_append_left (by omega)]; exact this
        · rw [← hlen]; simp [Neighbors.newRoot, Neighbors.isAlive, hlen]
        · rw [List.getElem?_eq_none (by simp; omega), List.getElem?_eq_none (by simp; omega)]
      rw [M.run_bind, e1]
      dsimp only
      rw [M.run_bind, e2]
      dsimp only
      refine HangsIf.bind (fun s e => ?_) fun r _ => ?_
      · obtain ⟨p, hp, st, h1, h2⟩ := C89_insert_cause hgc e
        have hN : f.issued = f.hier.nbrs.length := hc.len
        have hst : g.ancestorsOrSelf p = .ok st → st = some p := by
          unfold Forest.ancestorsOrSelf Forest.iterNew Ancestors.withStart
          split
          · nofun
          · rename_i n hn
            split
            · nofun
            · intro e
              cases e
              unfold Forest.nodeOrPanic Forest.node at hn
              split at hn
              · cases hn
              · cases hn; rfl
        subst hg
        refine ⟨p, ?_, some p, ?_, fun n => ?_⟩
        · cases dest with
          | firstChildOf a => exact hp
          | lastChildOf a => exact hp
          | previousSiblingOf a | nextSiblingOf a =>
            have hne : a ≠ f.hier.nbrs.length := Nat.ne_of_lt hv'
            have e3 : ∀ nb D, (⟨⟨f.hier.nbrs ++ [nb]⟩, D⟩ : Forest T).parentId a = f.parentId a := fun nb D => by
              unfold Forest.parentId Forest.nbr
              rw [grown_neighbors f.hier nb hne]
            exact (e3 _ _).symm.trans hp
        · obtain ⟨items, h3, h4, h5⟩ := h2 1
          have h6 := grown_climb hc _ _ 1 (some p) items (by rw [← hst h1]; exact h3) h5
          have ha : f.isAlive p = true := by
            cases hn : f.hier.neighbors p with
            | none =>
              unfold pull Forest.ancestorsNext Forest.emit at h6
              rw [anc_next_some, hn] at h6
              cases h6
            | some nb => exact hc.alive_of hn
          have hl : f.hier.isAlive p = true := by rw [← hc.live]; exact ha
          unfold Forest.ancestorsOrSelf Forest.iterNew Forest.nodeOrPanic Forest.node
          simp [ha, expect, Ancestors.withStart, hl]
        · obtain ⟨items, h3, h4, h5⟩ := h2 n
          rw [hN]
          exact ⟨items, grown_climb hc _ _ n (some p) items (by rw [← hst h1]; exact h3) h5, h4, h5⟩
      · cases r <;> exact HangsIf.of nofun
    · have e1 : ∃ m, Forest.onHier (Hier.createRoot cap) f = .fail (.panic m) f := by
        simp [Forest.onHier, M.zoom, Hier.createRoot, Hier.fromUsize, hcap]
      obtain ⟨m, e1⟩ := e1
      rw [M.run_bind, e1]
      exact HangsIf.of nofun

/-! ### Calls that can hang

Each history consists of calls that return `Ok`. -/

/-- Three nodes; 1 and 2 become first child of each other. -/
def ring : List (Op Nat) := threeRoots ++ [.insert 0 (.firstChildOf 1), .insert 2 (.previousSiblingOf 0), .insert 0 (.nextSiblingOf 2),
  .detachSingle 1, .insert 1 (.firstChildOf 2)]
/-- Three nodes whose parents go round. -/
def upRing : List (Op Nat) := ring ++ [.insert 0 (.firstChildOf 1)]
/-- Five nodes. -/
def lowRing : List (Op Nat) := fourRoots ++ [.createRoot 14, .insert 0 (.firstChildOf 1), .insert 2 (.previousSiblingOf 0), .insert 0 (.nextSiblingOf 2),
  .insert 2 (.firstChildOf 0), .insert 0 (.firstChildOf 1), .insert 2 (.lastChildOf 0), .insert 2 (.firstChildOf 4), .insert 0 (.firstChildOf 1),
  .insert 3 (.previousSiblingOf 0)]

theorem ring_smooth : Smooth 100 Forest.new ring := by
  simp only [Smooth, ring, threeRoots, List.cons_append, List.nil_append]; decide
theorem upRing_smooth : Smooth 100 Forest.new upRing := by
  simp only [Smooth, upRing, ring, threeRoots, List.cons_append, List.nil_append]; decide
theorem lowRing_smooth : Smooth 100 Forest.new lowRing := by
  simp only [Smooth, lowRing, fourRoots, threeRoots, List.cons_append, List.nil_append]; decide
theorem carousel_smooth : Smooth 100 Forest.new carousel := by
  simp only [Smooth, carousel, threeRoots, List.cons_append, List.nil_append]; decide

/-- After some history of calls that all return `Ok`, the call hangs. -/
def CanHang (q : Req Nat) : Prop := CanBe fun f => (q.exec 100 255 f).2 = .hung

/-- **C89, the others**: `insert`, at each kind of place, can hang. -/
theorem C89_insert_can_hang : ∀ dest ∈ [InsertAs.firstChildOf 1, .lastChildOf 1, .previousSiblingOf 1, .nextSiblingOf 1], CanHang (.insert 0 dest) := by
  intro dest hd
  refine ⟨upRing, upRing_smooth, ?_⟩
  simp only [List.mem_cons, List.not_mem_nil, or_false] at hd
  rcases hd with rfl | rfl | rfl | rfl <;> decide +kernel
/-- `create_insert`, at each kind of place, can hang. -/
theorem C89_create_insert_can_hang : ∀ dest ∈ [InsertAs.firstChildOf 0, .lastChildOf 0, .previousSiblingOf 0, .nextSiblingOf 0],
    CanHang (.createInsert 9 dest) := by
  intro dest hd
  refine ⟨upRing, upRing_smooth, ?_⟩
  simp only [List.mem_cons, List.not_mem_nil, or_false] at hd
  rcases hd with rfl | rfl | rfl | rfl <;> decide +kernel
/-- `NodeMut::create`, `adopt` and `try_adopt` can hang. -/
theorem C89_node_can_hang : CanHang (.nodeCreate 0 9 .firstChild) ∧ CanHang (.adopt 1 0 .firstChild) ∧ CanHang (.tryAdopt 1 0 .firstChild) :=
  ⟨⟨upRing, upRing_smooth, by decide +kernel⟩, ⟨upRing, upRing_smooth, by decide +kernel⟩, ⟨upRing, upRing_smooth, by decide +kernel⟩⟩
/-- `detach_single` can hang. -/
theorem C89_detach_single_can_hang : CanHang (.detachSingle 1) := ⟨upRing, upRing_smooth, by decide +kernel⟩
/-- `remove`, `remove_hooked` and `remove_hooked_panic_safe` can hang. -/
theorem C89_remove_can_hang : CanHang (.drop 2) ∧ CanHang (.remove 2 none) ∧ CanHang (.removeSafe 2 none) :=
  ⟨⟨ring, ring_smooth, by decide +kernel⟩, ⟨ring, ring_smooth, by decide +kernel⟩, ⟨ring, ring_smooth, by decide +kernel⟩⟩
/-- Printing can hang. -/
theorem C89_print_can_hang : CanHang (.print 1 fun _ => [['x']]) := ⟨ring, ring_smooth, by decide +kernel⟩
/-- `next` of a `BreadthFirstTraverse` can hang: the third call never returns, though the first two give items. -/
theorem C89_bft_can_hang : CanBe fun f => (Req.exec 100 255 f (.bft 4 2)).2 = .levels [some (4, 0), some (2, 1)] ∧
    (Req.exec 100 255 f (.bft 4 3)).2 = .hung := ⟨lowRing, lowRing_smooth, by decide +kernel, by decide +kernel⟩
/-- `next` of an `AllocatingBreadthFirstTraverse` can hang (on the first call). -/
theorem C89_abft_can_hang : CanHang (.abft 1 1) := ⟨carousel, carousel_smooth, by decide +kernel⟩
/-- Copying a tree can use up all the IDs there are and panic. -/
theorem C89_copy_can_exhaust : CanBe fun f => f.issued = 3 ∧ (Req.exec 30 255 f (.dup 1 some)).2 = .panicked ∧
    (Req.exec 30 255 f (.dup 1 some)).1.issued = 30 :=
  ⟨carousel, carousel_smooth, by decide +kernel, by decide +kernel, by decide +kernel⟩

/-! ### The hypotheses can be met -/

section
/-- `C89_brief`: a destroyed forest. -/
example := C89_brief (cap := 100) (um := 255) (.dft 1 [.front, .front, .front, .back] : Req Nat) trivial (Op.run 100 Forest.new carousel)

/-- `C89_next`: an iterator on a destroyed forest. -/
example := C89_next (cap := 100) (um := 255) (Op.run 100 Forest.new carousel) [.dft (some (.opn 1, .cls 1))] (i := 0) (it := .dft (some (.opn 1, .cls 1))) rfl trivial

/-- `C89_consistent`: a call that destroys the sample forest. -/
example := C89_consistent (cap := 100) (um := 255) ⟨_, Sample.models⟩ (.insert 1 (.firstChildOf 0))

/-- `C89_builders`: in a destroyed forest. -/
example := C89_builders (cap := 100) (um := 255) (f := Op.run 100 Forest.new upRing) ⟨_, rfl⟩ (.nest 5 [.addChild 6, .createTree 7 [.addChild 8]]) trivial

/-- `C89_untainted`: a forest with a destroyed tree; the call is given a node of another tree. -/
example := C89_untainted 100 255 besideHistory (.drop 0) fun x hx _ h => by
  simp only [Req.ids, List.mem_singleton] at hx
  rcases beside_taint x h with e | e | e <;> omega

/-- `C89_insert_cause`: the call in the destroyed forest. -/
example : ∃ p, Under (Op.run 100 Forest.new upRing) p (.firstChildOf 1) ∧ EndlessUp (Op.run 100 Forest.new upRing) 0 p :=
  C89_insert_cause (Reachable.coherent ⟨_, rfl⟩)
    (by decide +kernel : Forest.insert 0 (.firstChildOf 1) (Op.run 100 Forest.new upRing) = .fail .diverge (Op.run 100 Forest.new upRing))

/-- `C89_create_insert_cause`: the call in the destroyed forest. -/
example : ∃ p, Under (Op.run 100 Forest.new upRing) p (.firstChildOf 0) ∧ EndlessUp (Op.run 100 Forest.new upRing) 3 p :=
  C89_create_insert_cause (cap := 100) (d := 9) (f' := Op.run 100 (Op.run 100 Forest.new upRing) [.createRoot 9])
    (Reachable.coherent ⟨_, rfl⟩) (by decide +kernel)

end

end Treena
