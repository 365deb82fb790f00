import Verif.Proof.Local
/-! Locality of the functions of `hierarchy.rs`. -/
set_option autoImplicit false
namespace Treena
namespace Hier
variable {cap : Nat} {Q : Nat → Prop}

theorem connectPrev_loc {parent prev next : Option Nat} (h1 : InO Q parent) (h2 : InO Q prev) (h3 : InO Q next) :
    Loc (Same cap Q) (Out Q) (connectPrev parent prev next) (fun _ => True) := by
  unfold connectPrev
  cases prev with
  | none => exact Loc.pure out_ord trivial
  | some c => exact updNbr_loc (h2 c rfl) _ fun nb hn => InN.mk h1 hn.prevCyc h3 hn.first

theorem nextChildPrevCyclic_loc {parent prev : Option Nat} {c : Nat} (h1 : InO Q parent) (h2 : InO Q prev) (h3 : Q c) :
    LocR (Same cap Q) (fun h => nextChildPrevCyclic h parent prev c) Q := fun h h' hs => by
  unfold nextChildPrevCyclic
  cases prev with
  | some p => exact ⟨rfl, fun a ha => by cases ha; exact h2 p rfl⟩
  | none =>
    cases parent with
    | none => exact ⟨rfl, fun a ha => by cases ha; exact h3⟩
    | some p =>
      obtain ⟨g1, g2⟩ := nbr_loc (h1 p rfl) "[precondition] the given `parent` node must be alive" h h' hs
      dsimp only at g1 g2 ⊢
      rw [← g1]
      cases e : expect (h.neighbors p) "[precondition] the given `parent` node must be alive" with
      | error x => exact ⟨rfl, fun a ha => by cases ha⟩
      | ok nb =>
        obtain ⟨k1, k2⟩ := lastChild_loc (g2 nb e) h h' hs
        dsimp only at k1 k2 ⊢
        rw [← k1]
        cases e' : nb.lastChild h with
        | error x => exact ⟨rfl, fun a ha => by cases ha⟩
        | ok o =>
          refine ⟨rfl, fun a ha => ?_⟩
          cases ha
          cases o with
          | none => exact h3
          | some l => exact k2 _ e' l rfl

theorem connectNext_loc {parent prev next : Option Nat} (h1 : InO Q parent) (h2 : InO Q prev) (h3 : InO Q next) :
    Loc (Same cap Q) (Out Q) (connectNext parent prev next) (fun _ => True) := by
  unfold connectNext
  cases next with
  | none => exact Loc.pure out_ord trivial
  | some c =>
    refine Loc.bind out_ord (Loc.read out_ord (nextChildPrevCyclic_loc h1 h2 (h3 c rfl))) fun pc hpc => ?_
    exact updNbr_loc (h3 c rfl) _ fun nb hn => InN.mk h1 (InO.some hpc) hn.next hn.first

theorem readNb_loc {nb : Neighbors} (hn : InN Q nb) (f : Neighbors → R (Option Nat))
    (hf : ∀ {o}, f nb = .ok o → InO Q o) : Loc (Same cap Q) (Out Q) (M.read fun _ => f nb) (InO Q) :=
  Loc.read out_ord (LocR.const fun _ h => hf h)

theorem expect_loc {o : Option Nat} (ho : InO Q o) (msg : String) :
    Loc (Same cap Q) (Out Q) (M.read fun _ => expect o msg) Q :=
  Loc.read out_ord (LocR.const fun a h => by
    cases o with
    | none => cases h
    | some x => cases h; exact ho _ rfl)

theorem connectParent_loc {parent prev next : Option Nat} (h1 : InO Q parent) (h2 : InO Q prev) (h3 : InO Q next) :
    Loc (Same cap Q) (Out Q) (connectParent parent prev next) (fun _ => True) := by
  unfold connectParent
  cases parent with
  | none => exact Loc.pure out_ord trivial
  | some p =>
    cases prev with
    | none => exact updNbr_loc (h1 p rfl) _ fun nb hn => InN.mk hn.parent hn.prevCyc hn.next h3
    | some c =>
      cases next with
      | some _ => exact Loc.pure out_ord trivial
      | none =>
        refine Loc.bind out_ord (nbrOf_loc (h1 p rfl) _) fun nb hn => ?_
        refine Loc.bind out_ord (readNb_loc hn Neighbors.firstChild (firstChild_in hn)) fun fc hfc => ?_
        refine Loc.bind out_ord (expect_loc hfc _) fun c' hc' => ?_
        exact updNbr_loc hc' _ fun nb hn => InN.mk hn.parent (InO.some (h2 c rfl)) hn.next hn.first

theorem connectTriangle_loc {parent prev next : Option Nat} (h1 : InO Q parent) (h2 : InO Q prev) (h3 : InO Q next) :
    Loc (Same cap Q) (Out Q) (connectTriangle parent prev next) (fun _ => True) := by
  unfold connectTriangle
  refine Loc.ite (fun _ => Loc.panic out_ord _) fun _ => Loc.ite (fun _ => Loc.panic out_ord _) fun _ => ?_
  refine Loc.bind out_ord (connectPrev_loc h1 h2 h3) fun _ _ => ?_
  exact Loc.bind out_ord (connectNext_loc h1 h2 h3) fun _ _ => connectParent_loc h1 h2 h3

theorem detach_loc {x : Nat} (hx : Q x) : Loc (Same cap Q) (Out Q) (detach x) (fun _ => True) := by
  unfold detach
  refine Loc.bind out_ord (nbrOf_loc hx _) fun nb hn => ?_
  refine Loc.bind out_ord (readNb_loc hn Neighbors.getParent (getParent_in hn)) fun po hpo => ?_
  cases po with
  | none => exact Loc.pure out_ord trivial
  | some p =>
    refine Loc.bind out_ord (Loc.read out_ord (prevSibling_loc hn)) fun a ha => ?_
    refine Loc.bind out_ord (readNb_loc hn Neighbors.nextSibling (nextSibling_in hn)) fun b hb => ?_
    refine Loc.bind out_ord (connectTriangle_loc hpo ha hb) fun _ _ => ?_
    exact updNbr_loc hx _ fun nb hn => InN.mk InO.none (InO.some hx) InO.none hn.first

/-! ### The check for cycles -/

theorem withStart_loc {x : Nat} (hx : Q x) : LocR (Same cap Q) (fun h => Ancestors.withStart x h) (InO Q) := fun h h' hs => by
  unfold Ancestors.withStart
  dsimp only
  rw [hs.alive hx]
  refine ⟨rfl, fun a ha => ?_⟩
  split at ha
  · cases ha
  · cases ha; exact InO.some hx

theorem ancNext_loc {st : Ancestors.St} (hst : InO Q st) :
    LocR (Same cap Q) (fun h => Ancestors.next h st) (fun p => InO Q p.1 ∧ InO Q p.2) := fun h h' hs => by
  unfold Ancestors.next
  cases st with
  | none => exact ⟨rfl, fun a ha => by cases ha; exact ⟨InO.none, InO.none⟩⟩
  | some n =>
    obtain ⟨g1, g2⟩ := nbr_loc (hst n rfl) "[consistency] the node being traversed must be alive" h h' hs
    dsimp only at g1 g2 ⊢
    rw [← g1]
    refine ⟨rfl, fun a ha => ?_⟩
    cases e : expect (h.neighbors n) "[consistency] the node being traversed must be alive" with
    | error x => rw [e] at ha; cases ha
    | ok nb =>
      rw [e] at ha
      dsimp only at ha
      cases e' : nb.getParent with
      | error x => rw [e'] at ha; cases ha
      | ok p => rw [e'] at ha; cases ha; exact ⟨hst, getParent_in (g2 nb e) e'⟩

theorem ancestorsMeet_loc (root : Nat) : ∀ (fuel : Nat) {st : Ancestors.St}, InO Q st →
    LocR (Same cap Q) (fun h => ancestorsMeet h root fuel st) (fun _ => True)
  | 0, _, _ => fun _ _ _ => ⟨rfl, fun _ _ => trivial⟩
  | fuel + 1, st, hst => fun h h' hs => by
    obtain ⟨g1, g2⟩ := ancNext_loc hst h h' hs
    dsimp only at g1 g2 ⊢
    unfold ancestorsMeet
    rw [← g1]
    refine ⟨?_, fun _ _ => trivial⟩
    cases e : Ancestors.next h st with
    | error x => rfl
    | ok p =>
      obtain ⟨o, st'⟩ := p
      cases o with
      | none => rfl
      | some a =>
        dsimp only
        split
        · rfl
        · exact (ancestorsMeet_loc root fuel (g2 _ e).2 h h' hs).1

theorem rangeContains_loc (last pa : Nat) : ∀ (fuel : Nat) {o : Option Nat}, InO Q o →
    LocR (Same cap Q) (fun h => rangeContains h last pa fuel o) (fun _ => True)
  | _, none, _ => fun _ _ _ => ⟨by simp [rangeContains], fun _ _ => trivial⟩
  | 0, some _, _ => fun _ _ _ => ⟨rfl, fun _ _ => trivial⟩
  | fuel + 1, some x, ho => fun h h' hs => by
    obtain ⟨g1, g2⟩ := nbr_loc (ho x rfl) "[consistency] nodes in the range must be alive" h h' hs
    dsimp only at g1 g2 ⊢
    unfold rangeContains
    rw [← g1]
    refine ⟨?_, fun _ _ => trivial⟩
    split
    · rfl
    · split
      · rfl
      · cases e : expect (h.neighbors x) "[consistency] nodes in the range must be alive" with
        | error x => rfl
        | ok nb =>
          dsimp only
          cases e' : nb.nextSibling with
          | error x => rfl
          | ok n => exact (rangeContains_loc last pa fuel (nextSibling_in (g2 nb e) e') h h' hs).1

theorem rangeLoop_loc {first : Nat} (hf : Q first) (last rp inner : Nat) : ∀ (fuel : Nat) {st : Ancestors.St} (pa : Nat),
    InO Q st → LocR (Same cap Q) (fun h => rangeLoop h first last rp inner fuel st pa) (fun _ => True)
  | 0, _, _, _ => fun _ _ _ => ⟨rfl, fun _ _ => trivial⟩
  | fuel + 1, st, pa, hst => fun h h' hs => by
    obtain ⟨g1, g2⟩ := ancNext_loc hst h h' hs
    dsimp only at g1 g2 ⊢
    unfold rangeLoop
    rw [← g1]
    refine ⟨?_, fun _ _ => trivial⟩
    cases e : Ancestors.next h st with
    | error x => rfl
    | ok p =>
      obtain ⟨o, st'⟩ := p
      cases o with
      | none => rfl
      | some a =>
        dsimp only
        split
        · exact (rangeLoop_loc hf last rp inner fuel pa (g2 _ e).2 h h' hs).1
        · have hc := (rangeContains_loc last pa inner (InO.some hf) h h' hs).1
          dsimp only at hc
          rw [hc]
          cases rangeContains h' last pa inner (some first) with
          | error x => rfl
          | ok b =>
            cases b with
            | true => rfl
            | false => exact (rangeLoop_loc hf last rp inner fuel a (g2 _ e).2 h h' hs).1

theorem wouldMakeCyclicLinks_loc {first last parent : Nat} (hf : Q first) (hp : Q parent) :
    LocR (Same cap Q) (fun h => h.wouldMakeCyclicLinks first last parent) (fun _ => True) := fun h h' hs => by
  have hfuel : h.loopFuel = h'.loopFuel := by unfold loopFuel; rw [hs.size]
  obtain ⟨g1, g2⟩ := nbr_loc hf "[consistency] nodes in the range must be alive" h h' hs
  obtain ⟨k1, k2⟩ := withStart_loc hp h h' hs
  dsimp only at g1 g2 k1 k2 ⊢
  unfold wouldMakeCyclicLinks
  rw [← g1, ← k1]
  refine ⟨?_, fun _ _ => trivial⟩
  cases e : expect (h.neighbors first) "[consistency] nodes in the range must be alive" with
  | error x => rfl
  | ok nb =>
    dsimp only
    split
    · cases e1 : Ancestors.withStart parent h with
      | error x => rfl
      | ok st =>
        dsimp only
        rw [hfuel]
        exact (ancestorsMeet_loc first _ (k2 _ e1) h h' hs).1
    · cases e1 : nb.getParent with
      | error x => rfl
      | ok rp =>
        dsimp only
        cases e2 : expect rp "[consistency] range with multiple toplevel nodes must have a parent" with
        | error x => rfl
        | ok r =>
          dsimp only
          split
          · rfl
          · cases e3 : Ancestors.withStart parent h with
            | error x => rfl
            | ok st =>
              obtain ⟨m1, m2⟩ := ancNext_loc (k2 _ e3) h h' hs
              dsimp only at m1 m2 ⊢
              rw [← m1]
              cases e4 : Ancestors.next h st with
              | error x => rfl
              | ok p =>
                obtain ⟨o, st'⟩ := p
                dsimp only
                cases e5 : expect o "[validity] start node itself must be iterated" with
                | error x => rfl
                | ok a =>
                  dsimp only
                  rw [hfuel]
                  exact (rangeLoop_loc hf last r _ _ a (m2 _ e4).2 h h' hs).1

/-! ### Moving -/

theorem rewriteParents_loc {parent : Nat} (hp : Q parent) (last : Nat) : ∀ (fuel : Nat) {o : Option Nat}, InO Q o →
    Loc (Same cap Q) (Out Q) (rewriteParents parent last fuel o) (fun _ => True)
  | _, none, _ => by unfold rewriteParents; exact Loc.pure out_ord trivial
  | 0, some _, _ => by unfold rewriteParents; exact Loc.throw out_ord _
  | fuel + 1, some c, ho => by
    unfold rewriteParents
    refine Loc.ite (fun _ => Loc.panic out_ord _) fun _ => ?_
    refine Loc.bind out_ord (updNbr_loc (ho c rfl) _ fun nb hn => InN.mk (InO.some hp) hn.prevCyc hn.next hn.first)
      fun _ _ => ?_
    refine Loc.ite (fun _ => Loc.pure out_ord trivial) fun _ => ?_
    refine Loc.bind out_ord (nbrOf_loc (ho c rfl) _) fun nb hn => ?_
    refine Loc.bind out_ord (readNb_loc hn Neighbors.nextSibling (nextSibling_in hn)) fun n hn' => ?_
    exact rewriteParents_loc hp last fuel hn'

theorem transplantDisconnect_loc {first last : Nat} (hf : Q first) (hl : Q last) :
    Loc (Same cap Q) (Out Q) (transplantDisconnect first last) (fun _ => True) := by
  unfold transplantDisconnect
  refine Loc.bind out_ord (nbrOf_loc hf _) fun nb hn => ?_
  refine Loc.bind out_ord (readNb_loc hn Neighbors.getParent (getParent_in hn)) fun p hp => ?_
  refine Loc.bind out_ord (Loc.read out_ord (prevSibling_loc hn)) fun a ha => ?_
  refine Loc.bind out_ord (nbrOf_loc hl _) fun nb' hn' => ?_
  refine Loc.bind out_ord (readNb_loc hn' Neighbors.nextSibling (nextSibling_in hn')) fun b hb => ?_
  exact connectTriangle_loc hp ha hb

theorem transplantConnect_loc {first last parent : Nat} {a b : Option Nat} (hf : Q first) (hl : Q last) (hp : Q parent)
    (ha : InO Q a) (hb : InO Q b) : Loc (Same cap Q) (Out Q) (transplantConnect first last parent a b) (fun _ => True) := by
  unfold transplantConnect
  have hk : Loc (Same cap Q) (Out Q) (if b ≠ some last then connectTriangle (some parent) (some last) b else pure ())
      (fun _ => True) :=
    Loc.ite (fun _ => connectTriangle_loc (InO.some hp) (InO.some hl) hb) fun _ => Loc.pure out_ord trivial
  exact Loc.ite (fun _ => Loc.bind out_ord (connectTriangle_loc (InO.some hp) ha (InO.some hf)) fun _ _ => hk) fun _ => hk

theorem transplant_loc {first last parent : Nat} {a b : Option Nat} (hf : Q first) (hl : Q last) (hp : Q parent)
    (ha : InO Q a) (hb : InO Q b) : Loc (Same cap Q) (Out Q) (transplant first last parent a b) (fun _ => True) := by
  unfold transplant
  refine Loc.bind out_ord (Loc.read out_ord (wouldMakeCyclicLinks_loc hf hp)) fun cyc _ => ?_
  refine Loc.ite (fun _ => Loc.pure out_ord trivial) fun _ => ?_
  refine Loc.bind out_ord (transplantDisconnect_loc hf hl) fun _ _ => ?_
  refine Loc.bind (good := fun _ => True) out_ord (Loc.read out_ord fun h h' hs => ⟨?_, fun _ _ => trivial⟩) fun fuel _ => ?_
  · unfold loopFuel; rw [hs.size]
  refine Loc.bind out_ord (rewriteParents_loc hp last fuel (InO.some hf)) fun _ _ => ?_
  refine Loc.bind out_ord (transplantConnect_loc hf hl hp ha hb) fun _ _ => ?_
  exact Loc.pure out_ord trivial

theorem rangeSingle_loc {x : Nat} (hx : Q x) : LocR (Same cap Q) (fun h => h.rangeSingle x) (fun r => Q r.1 ∧ Q r.2) :=
  fun h h' hs => by
    unfold rangeSingle
    dsimp only
    rw [hs.alive hx]
    refine ⟨rfl, fun a ha => ?_⟩
    split at ha
    · cases ha
    · cases ha; exact ⟨hx, hx⟩

theorem rangeNew_loc {x y : Nat} (hx : Q x) (hy : Q y) :
    LocR (Same cap Q) (fun h => h.rangeNew x y) (fun r => Q r.1 ∧ Q r.2) := fun h h' hs => by
  have g1 := (nbr_loc hx "[precondition] `first` node must be alive" h h' hs).1
  have g2 := (nbr_loc hy "[precondition] `last` node must be alive" h h' hs).1
  have g3 := rangeSingle_loc hx h h' hs
  dsimp only at g1 g2 g3 ⊢
  unfold rangeNew
  rw [← g1, ← g2, ← g3.1]
  refine ⟨rfl, fun a ha => ?_⟩
  split at ha
  · exact g3.2 a ha
  · split at ha
    · cases ha
    · split at ha
      · cases ha
      · split at ha
        · cases ha
        · split at ha
          · cases ha
          · split at ha
            · cases ha
            · cases ha; exact ⟨hx, hy⟩

theorem insert_loc {x : Nat} {d : InsertAs} (hx : Q x) (hd : Q d.place.anchor) :
    Loc (Same cap Q) (Out Q) (insert x d) (fun _ => True) := by
  unfold insert
  cases d with
  | firstChildOf p =>
    refine Loc.bind out_ord (nbrOf_loc hd _) fun nb hn => ?_
    refine Loc.bind out_ord (readNb_loc hn Neighbors.firstChild (firstChild_in hn)) fun o ho => ?_
    refine Loc.bind out_ord (Loc.read out_ord (rangeSingle_loc hx)) fun r hr => ?_
    exact transplant_loc hr.1 hr.2 hd InO.none ho
  | lastChildOf p =>
    refine Loc.bind out_ord (nbrOf_loc hd _) fun nb hn => ?_
    refine Loc.bind out_ord (Loc.read out_ord (lastChild_loc hn)) fun o ho => ?_
    refine Loc.bind out_ord (Loc.read out_ord (rangeSingle_loc hx)) fun r hr => ?_
    exact transplant_loc hr.1 hr.2 hd ho InO.none
  | previousSiblingOf n =>
    refine Loc.ite (fun _ => Loc.pure out_ord trivial) fun _ => ?_
    refine Loc.bind out_ord (nbrOf_loc hd _) fun nb hn => ?_
    refine Loc.bind out_ord (readNb_loc hn Neighbors.getParent (getParent_in hn)) fun po hpo => ?_
    refine Loc.bind out_ord (expect_loc hpo _) fun p hp => ?_
    refine Loc.bind out_ord (Loc.read out_ord (prevSibling_loc hn)) fun a ha => ?_
    refine Loc.bind out_ord (Loc.read out_ord (rangeSingle_loc hx)) fun r hr => ?_
    exact transplant_loc hr.1 hr.2 hp ha (InO.some hd)
  | nextSiblingOf n =>
    refine Loc.ite (fun _ => Loc.pure out_ord trivial) fun _ => ?_
    refine Loc.bind out_ord (nbrOf_loc hd _) fun nb hn => ?_
    refine Loc.bind out_ord (readNb_loc hn Neighbors.getParent (getParent_in hn)) fun po hpo => ?_
    refine Loc.bind out_ord (expect_loc hpo _) fun p hp => ?_
    refine Loc.bind out_ord (readNb_loc hn Neighbors.nextSibling (nextSibling_in hn)) fun a ha => ?_
    refine Loc.bind out_ord (Loc.read out_ord (rangeSingle_loc hx)) fun r hr => ?_
    exact transplant_loc hr.1 hr.2 hp (InO.some hd) ha

theorem detachSingle_loc {x : Nat} (hx : Q x) : Loc (Same cap Q) (Out Q) (detachSingle x) (fun _ => True) := by
  unfold detachSingle
  refine Loc.bind out_ord (nbrOf_loc hx _) fun nb hn => ?_
  refine Loc.bind out_ord (Loc.read out_ord (firstLastChild_loc hn)) fun fl hfl => ?_
  cases fl with
  | none => exact Loc.bind out_ord (detach_loc hx) fun _ _ => Loc.pure out_ord trivial
  | some p =>
    obtain ⟨a, b⟩ := p
    obtain ⟨ha, hb⟩ := hfl _ rfl
    refine Loc.bind out_ord (readNb_loc hn Neighbors.getParent (getParent_in hn)) fun po hpo => ?_
    cases po with
    | none =>
      refine Loc.ite (fun _ => Loc.pure out_ord trivial) fun _ => ?_
      exact Loc.bind out_ord (detach_loc ha) fun _ _ => Loc.bind out_ord (detach_loc hx) fun _ _ => Loc.pure out_ord trivial
    | some p =>
      refine Loc.bind out_ord (Loc.read out_ord (prevSibling_loc hn)) fun u hu => ?_
      refine Loc.bind out_ord (readNb_loc hn Neighbors.nextSibling (nextSibling_in hn)) fun v hv => ?_
      refine Loc.bind out_ord (connectTriangle_loc hpo hu hv) fun _ _ => ?_
      refine Loc.bind out_ord (Loc.read out_ord (rangeNew_loc ha hb)) fun r hr => ?_
      refine Loc.bind out_ord (transplant_loc hr.1 hr.2 (hpo p rfl) hu hv) fun e _ => ?_
      cases e with
      | error _ => exact Loc.panic out_ord _
      | ok u =>
        refine Loc.bind out_ord (updNbr_loc hx _ fun nb hn => InN.mk InO.none (InO.some hx) InO.none hn.first) fun _ _ => ?_
        refine Loc.bind out_ord (nbrOf_loc hx _) fun nb hn => ?_
        refine Loc.bind out_ord (readNb_loc hn Neighbors.firstChild (firstChild_in hn)) fun fc _ => ?_
        exact Loc.ite (fun _ => Loc.panic out_ord _) fun _ => Loc.pure out_ord trivial

theorem removed_in : InN Q Neighbors.removed := InN.mk InO.none InO.none InO.none InO.none

theorem makeRemoved_loc {x : Nat} (hx : Q x) (msg : String) :
    Loc (Same cap Q) (Out Q) (makeRemoved x msg) (fun _ => True) := by
  unfold makeRemoved
  refine Loc.bind out_ord (nbrOf_loc hx _) fun nb hn => ?_
  refine Loc.bind (good := fun _ => True) out_ord (Loc.read out_ord (LocR.const fun _ _ => trivial)) fun al _ => ?_
  exact Loc.ite (fun _ => Loc.panic out_ord _) fun _ => updNbr_loc hx _ fun _ _ => removed_in

theorem forceMakeRemoved_loc {x : Nat} (hx : Q x) (msg : String) :
    Loc (Same cap Q) (Out Q) (forceMakeRemoved x msg) (fun _ => True) := updNbr_loc hx _ fun _ _ => removed_in

theorem createRoot_loc (cap : Nat) : Loc (Same cap Q) (Out Q) (createRoot cap) Q := fun h h' hs => by
  unfold createRoot
  rw [← hs.size]
  cases e : fromUsize cap h.nbrs.length with
  | none => exact ⟨h, h', hs, out_ord.refl _, out_ord.refl _, .inr ⟨_, rfl, rfl⟩⟩
  | some n =>
    have hn : n = h.nbrs.length := by
      unfold fromUsize at e; split at e
      · cases e; rfl
      · cases e
    have hlt : h.nbrs.length < cap := by
      unfold fromUsize at e; split at e
      · assumption
      · cases e
    subst hn
    have hnew : Q h.nbrs.length := hs.fresh _ (Nat.le_refl _) hlt
    have hnb : ∀ (k : Hier) (z : Nat), (Hier.mk (k.nbrs ++ [Neighbors.newRoot z])).neighbors k.nbrs.length =
        some (Neighbors.newRoot z) := fun k z => by simp [neighbors, Option.filter, Neighbors.newRoot, Neighbors.isAlive]
    have hold : ∀ (k : Hier) (z y : Nat), y < k.nbrs.length →
        (Hier.mk (k.nbrs ++ [Neighbors.newRoot z])).neighbors y = k.neighbors y := fun k z y hy => by
      simp [neighbors, List.getElem?_append_left hy]
    have hbey : ∀ (k : Hier) (z y : Nat), k.nbrs.length < y →
        (Hier.mk (k.nbrs ++ [Neighbors.newRoot z])).neighbors y = none := fun k z y hy => by
      simp only [neighbors]
      rw [List.getElem?_eq_none (by simp; omega)]; rfl
    refine ⟨⟨h.nbrs ++ [Neighbors.newRoot h.nbrs.length]⟩, ⟨h'.nbrs ++ [Neighbors.newRoot h.nbrs.length]⟩,
      ⟨by simp [hs.size], ?_, ?_, ?_⟩, ?_, ?_, .inl ⟨_, rfl, rfl, hnew⟩⟩
    · intro y hy
      rcases Nat.lt_trichotomy y h.nbrs.length with hlt | rfl | hgt
      · rw [hold h _ y hlt, hold h' _ y (by rw [← hs.size]; exact hlt), hs.links y hy]
      · have h2 := hnb h' h.nbrs.length
        rw [← hs.size] at h2
        rw [hnb h, h2]
      · rw [hbey h _ y hgt, hbey h' _ y (by rw [← hs.size]; exact hgt)]
    · intro y hy nb hb
      rcases Nat.lt_trichotomy y h.nbrs.length with hlt | rfl | hgt
      · rw [hold h _ y hlt] at hb; exact hs.closed y hy nb hb
      · rw [hnb h] at hb; cases hb
        exact InN.mk InO.none (InO.some hnew) InO.none InO.none
      · rw [hbey h _ y hgt] at hb; cases hb
    · intro y hy
      refine hs.fresh y ?_
      simp at hy; omega
    · intro y hy
      have : y ≠ h.nbrs.length := fun e => hy (e ▸ hnew)
      rcases Nat.lt_or_gt_of_ne this with h1 | h1
      · simp [List.getElem?_append_left h1]
      · rw [List.getElem?_eq_none (by simp; omega), List.getElem?_eq_none (by omega)]
    · intro y hy
      have : y ≠ h'.nbrs.length := fun e => hy (e ▸ hs.size ▸ hnew)
      rcases Nat.lt_or_gt_of_ne this with h1 | h1
      · simp [List.getElem?_append_left h1]
      · rw [List.getElem?_eq_none (by simp; omega), List.getElem?_eq_none (by omega)]

end Hier
end Treena
