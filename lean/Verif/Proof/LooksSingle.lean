import Verif.Proof.LooksCreate
import Verif.Proof.FuelMut
import Verif.Proof.DetachSingle
/-!
# How much of a forest `detach_single` looks at
-/
set_option autoImplicit false
namespace Treena
open Hier Shape
variable {T : Type} {α β γ : Type} {j k n : Nat} {cap um : Nat}

theorem range_more {h : Hier} {a b rp inner : Nat} : ∀ {F : Nat} {st : Ancestors.St} {prev : Nat},
    Hier.rangeLoop h a b rp inner F st prev ≠ .error .diverge →
    ∀ k, Hier.rangeLoop h a b rp inner (F + k) st prev = Hier.rangeLoop h a b rp inner F st prev
  | 0, _, _, e, _ => absurd rfl e
  | F + 1, st, prev, e, k => by
    rw [Nat.add_right_comm]
    unfold Hier.rangeLoop at e ⊢
    cases hv : Ancestors.next h st with
    | error x => rfl
    | ok v =>
      rcases v with ⟨_ | y, st'⟩
      · rfl
      · rw [hv] at e
        dsimp only at e ⊢
        split
        · rename_i hne
          rw [if_pos hne] at e
          exact range_more e k
        · rename_i hne
          rw [if_neg hne] at e
          cases hc : Hier.rangeContains h b prev inner (some a) with
          | error x => rfl
          | ok c =>
            cases c with
            | true => rfl
            | false =>
              rw [hc] at e
              exact range_more e k

namespace Looks
variable {f : Forest T}
/-- `look`, keeping what was seen. -/
macro "seek " t:term:max k:term:max " as " v:ident hv:ident : tactic => `(tactic|
  (refine on (K := ?K) $t $k (by omega) ?hc ?hK
   case hc =>
     intro g v h
     try dsimp only at h ⊢
     rw [h]
   intro $v $hv
   try dsimp only at $hv:ident))
theorem rangeUp {par : Nat → Option Nat} {a b rp : Nat} {q : Nat} {l : List Nat} (hp : UpPath par q l) (hr : ReadsPath f.hier par l)
    (hrp : rp ∉ l) (prev : Nat) : Looks l.length f fun g => Hier.rangeLoop g.hier a b rp g.hier.loopFuel (l.length + 1) (some q) prev := by
  have round : ∀ (n q : Nat), q ≠ rp → ∀ g : Forest T, Hier.rangeLoop g.hier a b rp g.hier.loopFuel (n + 1) (some q) prev = (match g.hier.neighbors q with
      | none => .error (.panic "[consistency] the node being traversed must be alive")
      | some nb => Hier.rangeLoop g.hier a b rp g.hier.loopFuel n nb.parent prev : R Bool) := by
    intro n q hne g
    simp only [Hier.rangeLoop, anc_next_some]
    cases g.hier.neighbors q with
    | none => rfl
    | some nb => simp only [ne_eq, hne, not_false_eq_true, if_true]
  induction hp with
  | @root q h0 =>
    obtain ⟨hl, hpar⟩ := hr q (by simp)
    have hne : q ≠ rp := fun e => hrp (by simp [e])
    refine on (K := fun v g => match v with
      | none => .error (.panic "[consistency] the node being traversed must be alive")
      | some nb => Hier.rangeLoop g.hier a b rp g.hier.loopFuel 1 nb.parent prev) (nbr q) 0 (Nat.le_refl _) (fun g v h => ?_) fun v hv => ?_
    · rw [← h]; exact round 1 q hne g
    · rw [Hier.neighbors_live hl] at hv
      subst hv
      simp only [hpar, h0, Hier.rangeLoop, Ancestors.next]
      exact const _
  | @step q p l h0 hp ih =>
    obtain ⟨hl, hpar⟩ := hr q (by simp)
    have hne : q ≠ rp := fun e => hrp (by simp [e])
    have ih' := ih (fun y hy => hr y (by simp [hy])) fun hm => hrp (by simp [hm])
    refine on (K := fun v g => match v with
      | none => .error (.panic "[consistency] the node being traversed must be alive")
      | some nb => Hier.rangeLoop g.hier a b rp g.hier.loopFuel (l.length + 1) nb.parent prev) (nbr q) l.length (by simp; omega)
      (fun g v h => ?_) fun v hv => ?_
    · rw [← h]; exact round (l.length + 1) q hne g
    · rw [Hier.neighbors_live hl] at hv
      subst hv
      simp only [hpar, h0]
      exact ih'
theorem rangeEnds {par : Nat → Option Nat} {a b rp : Nat} {q : Nat} {l : List Nat} (hp : UpPath par q l) (hr : ReadsPath f.hier par l)
    (hrp : rp ∉ l) (prev : Nat) : Looks l.length f fun g => Hier.rangeLoop g.hier a b rp g.hier.loopFuel (2 * g.hier.loopFuel) (some q) prev := by
  obtain ⟨L, hL, e⟩ := rangeUp (a := a) (b := b) hp hr hrp prev
  have ok : Hier.rangeLoop f.hier a b rp f.hier.loopFuel (l.length + 1) (some q) prev = .ok false := rangeLoop_eq hp hr hrp (by omega)
  have all : ∀ g, AgreeAt L f g → Hier.rangeLoop g.hier a b rp g.hier.loopFuel (2 * g.hier.loopFuel) (some q) prev = .ok false := by
    intro g hg
    have eg := e g hg
    dsimp only at eg
    rw [ok] at eg
    rw [← eg, ← range_more (F := l.length + 1) (by rw [eg]; nofun) (2 * g.hier.loopFuel), Nat.add_comm,
      rangeLoop_fuel (F := 2 * g.hier.loopFuel) a b rp g.hier.loopFuel (some q) prev (by unfold Hier.loopFuel; omega)]
  exact ⟨L, hL, fun g hg => (all g hg).trans (all f fun _ _ => ⟨rfl, rfl⟩).symm⟩
/-- The loop test of a range whose parent `x` is not above the new parent `p`. -/
theorem cyclicRange {par : Nat → Option Nat} {a b x p : Nat} {l : List Nat} (hne : a ≠ b) (ha : f.hier.live a) (hpa : (f.hier.get a).parent = some x)
    (hxp : x ≠ p) (hp : UpPath par p l) (hr : ReadsPath f.hier par l) (hx : x ∉ l) :
    Looks (3 + l.length) f fun g => Hier.wouldMakeCyclicLinks g.hier a b p := by
  unfold Hier.wouldMakeCyclicLinks
  seek (nbr a) (2 + l.length) as v hv
  rw [Hier.neighbors_live ha] at hv
  subst hv
  have hg : (f.hier.get a).getParent = .ok (some x) := by rw [getParent_live ha, hpa]
  simp only [expect, hne, if_false, hg, hxp]
  unfold Ancestors.withStart
  look (hierAlive p) (1 + l.length) with (_ | _)
  simp only [Bool.not_true, Bool.false_eq_true, if_false, anc_next_some]
  obtain ⟨hl, hpar⟩ := hr p (hp.mem_iff.2 .refl)
  seek (nbr p) l.length as v hv
  rw [Hier.neighbors_live hl] at hv
  subst hv
  simp only [hpar]
  cases hp with
  | root h0 =>
    rw [h0]
    refine ⟨[], Nat.zero_le _, fun g _ => ?_⟩
    have : ∀ g : Forest T, 2 * g.hier.loopFuel = (2 * g.hier.nbrs.length + 3) + 1 := fun g => by unfold Hier.loopFuel; omega
    dsimp only
    rw [this g, this f]
    simp [Hier.rangeLoop, Ancestors.next]
  | @step _ q l' h0 hq =>
    rw [h0]
    exact mono (rangeEnds hq (fun y hy => hr y (by simp [hy])) (fun hm => hx (by simp [hm])) p) (by simp)
end Looks

theorem rewrite_more {P l : Nat} : ∀ {F : Nat} {cur : Option Nat} {h h' : Hier}, Hier.rewriteParents P l F cur h = .ok () h' →
    ∀ k, Hier.rewriteParents P l (F + k) cur h = .ok () h'
  | F, none, h, h', e, k => by
    unfold Hier.rewriteParents at e ⊢
    exact e
  | 0, some c, h, h', e, k => by cases e
  | F + 1, some c, h, h', e, k => by
    rw [Nat.add_right_comm]
    unfold Hier.rewriteParents at e ⊢
    split
    · rename_i hc; rw [if_pos hc] at e; exact e
    · rename_i hc
      rw [if_neg hc] at e
      obtain ⟨_, h1, e1, e2⟩ := bind_ok_inv e
      rw [M.run_bind, e1]
      dsimp only
      split
      · rename_i hl; rw [if_pos hl] at e2; exact e2
      · rename_i hl
        rw [if_neg hl] at e2
        obtain ⟨nb, h2, e3, e4⟩ := bind_ok_inv e2
        obtain ⟨o, h3, e5, e6⟩ := bind_ok_inv e4
        rw [M.run_bind, e3]
        dsimp only
        rw [M.run_bind, e5]
        exact rewrite_more e6 k

namespace TouchesH
variable {h : Hier}
theorem rewriteFuel (P l : Nat) : ∀ (F : Nat) (cur : Option Nat) (h : Hier), TouchesH (2 * F) h (Hier.rewriteParents P l F cur)
  | F, none, h => by unfold Hier.rewriteParents; exact pure _
  | 0, some c, h => ⟨[], by simp, fun g hg => ⟨rfl, hg, fun _ _ => rfl⟩⟩
  | F + 1, some c, h => by
    unfold Hier.rewriteParents
    split
    · exact panic _
    · refine mono (bind (j := 1) (k := 2 * F + 1) (updNbr _ _ _) fun _ _ => ?_) (by omega)
      split
      · exact pure _
      · exact bindNbr (2 * F) (by omega) fun nb _ => bindConst fun o _ => rewriteFuel P l F o _
theorem rewriteLoop {P l F : Nat} {cur : Option Nat} {h' : Hier} (e : Hier.rewriteParents P l F cur h = .ok () h') :
    TouchesH (2 * F) h (do
      let fuel ← M.read fun h => .ok (Hier.loopFuel h)
      Hier.rewriteParents P l fuel cur) := by
  obtain ⟨L, hL, t⟩ := rewriteFuel P l F cur h
  have key : ∀ g, SameH L h g → (do
      let fuel ← M.read fun h => .ok (Hier.loopFuel h)
      Hier.rewriteParents P l fuel cur : M Hier Unit) g = Hier.rewriteParents P l F cur g := by
    intro g hg
    have h1 := (t g hg).1
    rw [e] at h1
    cases hv : Hier.rewriteParents P l F cur g with
    | fail x s => rw [hv] at h1; cases h1
    | ok u s =>
      show Hier.rewriteParents P l g.loopFuel cur g = _
      have h2 := rewrite_more hv g.loopFuel
      rcases rewriteParents_fuel g P l cur F with h3 | ⟨_, s', h3⟩
      · rw [h3, Nat.add_comm, h2]
      · rw [Nat.add_comm, h2] at h3; cases h3
  refine ⟨L, hL, fun g hg => ?_⟩
  rw [key g hg, key h fun _ _ => rfl]
  exact t g hg
theorem bindOk {m : Nat} {a : α} {h' : Hier} {m0 : M Hier α} {c : α → M Hier β} (k : Nat) (hm : j + k ≤ m) (e : m0 h = .ok a h') (h0 : TouchesH j h m0)
    (hc : TouchesH k h' (c a)) : TouchesH m h (m0 >>= c) := by
  refine mono (bind h0 fun b hb => ?_) hm
  rw [e] at hb ⊢
  cases hb
  exact hc
theorem rangeNew (a b : Nat) : LooksH 2 h fun h => h.rangeNew a b := by
  refine LooksH.of ?_
  unfold Hier.rangeNew
  by_cases hab : a = b
  · simp only [hab, if_true]
    exact Looks.mono (by unfold Hier.rangeSingle; look (Looks.hierAlive b) 0 with (_ | _)) (Nat.le_succ 1)
  · simp only [hab, if_false]
    look (Looks.nbr a) 1 with (_ | nb)
    simp only [expect]
    cases nb.getParent with
    | error e => exact Looks.const _
    | ok p =>
      dsimp only
      look (Looks.nbr b) 0 with (_ | nb')
end TouchesH

variable {h : Hier} {s : Shape}

/-- The code of `detach_single` in both builds: they differ in what is done at the end of the longest branch. -/
def singleWith (fin : M Hier (Except StructureError Unit)) (node : Nat) : M Hier (Except StructureError Unit) := do
  let nbs ← Hier.nbrOf node "[precondition] the node must be alive"
  let fl ← M.read fun h => nbs.firstLastChild h
  match fl with
  | none => do
    Hier.detach node
    pure (.ok ())
  | some (firstChild, lastChild) => do
    let parent ← M.read fun _ => nbs.getParent
    match parent with
    | none =>
      if firstChild ≠ lastChild then pure (.error .siblingsWithoutParent)
      else do
        Hier.detach firstChild
        Hier.detach node
        pure (.ok ())
    | some parent => do
      let prev ← M.read fun h => nbs.prevSibling h
      let next ← M.read fun _ => nbs.nextSibling
      Hier.connectTriangle (some parent) prev next
      let range ← M.read fun h => h.rangeNew firstChild lastChild
      let r ← Hier.transplant range.1 range.2 parent prev next
      match r with
      | .error _ => M.panic "[consistency] structure being created must be valid"
      | .ok () => do
        Hier.updNbr node "[precondition] the node must be alive"
          fun nb => { nb with parent := none, next := none, prevCyc := some node }
        fin

theorem singleWith_debug (x : Nat) : Hier.detachSingle x = singleWith (do
    let nb ← Hier.nbrOf x "[precondition] the node must be alive"
    let fc ← M.read fun _ => nb.firstChild
    if fc ≠ none then M.panic "[consistency] the children have been transplanted"
    else pure (.ok ())) x := rfl
theorem singleWith_release (x : Nat) : Release.Hier.detachSingle x = singleWith (pure (.ok ())) x := rfl

theorem single_splice (ha : Agrees h s) (hv : s.Valid) {x p : Nat} {pl : List Nat}
    (hp : s.parent x = some p) (hC : s.kids x ≠ []) (hpath : UpPath s.parent p pl)
    {fin : M Hier (Except StructureError Unit)} (hfin : ∀ g, TouchesH 1 g fin) :
    TouchesH (pl.length + 2 * (s.kids x).length + 37) h (singleWith fin x) := by
  have hx : s.alive x = true := (hv.parent_alive x p hp).1
  have hpa : s.alive p = true := (hv.parent_alive x p hp).2
  have hxl := (ha.live_iff hv x).2 hx
  have hpx := hv.parent_ne hp
  obtain ⟨f, hf⟩ : ∃ f, (s.kids x).head? = some f := by
    cases e : s.kids x with
    | nil => exact absurd e hC
    | cons a l => exact ⟨a, rfl⟩
  have hfC : f ∈ s.kids x := List.mem_of_mem_head? hf
  obtain ⟨l, hl, hlC⟩ := getLast?_of_mem hfC
  have hCnd := hv.kids_nodup x
  have hCx : ∀ c, c ∈ s.kids x → c ≠ x := fun c hc e => hv.self_not_kid (x := x) (e ▸ hc)
  have hCp : p ∉ s.kids x := fun hm => by
    have := hv.kid_parent hm
    exact (hv.rooted x).acyclic hp (.step this .refl)
  obtain ⟨h1, hc1, hlen1, hgx1, hgo1⟩ := disconnect ha hv hp
  have hpar : (h.get x).parent = s.parent x := by rw [ha.get_alive hx]; rfl
  have hnx : (h.get x).next = s.next x := by rw [ha.get_alive hx]; rfl
  have hg1C : ∀ c, c ∈ s.kids x → h1.get c = Neighbors.mk (some x) (pc (s.kids x) c) (nx (s.kids x) c) (s.kids c).head? := by
    intro c hc
    have hca : (s.detach x).alive c = true := hv.kid_alive hc
    have hcp : s.parent c = some x := hv.kid_parent hc
    have hcnp : s.parent c ≠ some p := by rw [hcp]; simp; exact hpx.symm
    have hcp' : c ≠ p := fun e => hCp (e ▸ hc)
    rw [hgo1 c (hCx c hc), entry_alive hca, hv.detach_link_other hp (hCx c hc) hcp' hcnp, link_child hcp]
  have hlive1 : ∀ y, s.alive y = true → h1.live y := by
    intro y hy
    by_cases e : y = x
    · subst e; unfold Hier.live; rw [hgx1]; exact hv.link_alive y
    · unfold Hier.live; rw [hgo1 y e, (hv.detach x).entry_isAlive]; exact hy
  have hCa : ∀ c, c ∈ s.kids x → s.alive c = true := fun c hc => hv.kid_alive hc
  have hf1 := hlive1 f (hCa f hfC)
  have hl1 := hlive1 l (hCa l hlC)
  have hx1 := hlive1 x hx
  have hp1 := hlive1 p hpa
  have hrange : rangeNew h1 f l = .ok (f, l) := by
    unfold rangeNew
    by_cases e : f = l
    · subst e
      simp [rangeSingle, (isAlive_iff h1 f).2 hf1]
    · have e1 : (h1.get f).getParent = .ok (some x) := by rw [getParent_live hf1, hg1C f hfC]
      have e2 : (h1.get l).getParent = .ok (some x) := by rw [getParent_live hl1, hg1C l hlC]
      simp [e, neighbors_live hf1, neighbors_live hl1, e1, e2]
  have hpathx := path_avoids hv hp hpath
  have hreads : ReadsPath h1 s.parent pl := by
    intro y hy
    have hya := (hpath.mem_iff.1 hy).alive hv hpa
    have hyx : y ≠ x := fun e => hpathx (e ▸ hy)
    refine ⟨hlive1 y hya, ?_⟩
    have hd : (s.detach x).alive y = true := hya
    rw [hgo1 y hyx, entry_alive hd]
    exact s.detach_parent hyx
  have hplen : pl.length ≤ s.size := hv.path_length hpath hpa
  have hcycL : LooksH (3 + pl.length) h1 fun h => Hier.wouldMakeCyclicLinks h f l p := by
    by_cases e : f = l
    · subst e
      exact LooksH.of (Looks.mono (Looks.cyclic f (hpath.topWithin hreads)) (by omega))
    · exact LooksH.of (Looks.cyclicRange (x := x) e hf1 (by show (h1.get f).parent = _; rw [hg1C f hfC]) hpx.symm hpath hreads hpathx)
  have hprevf : (h1.get f).prevSibling h1 = .ok none := by
    have e1 : (h1.get f).prevCyc = some l := by
      rw [hg1C f hfC]; show pc _ _ = _; rw [pc_self hfC, if_pos hf, hl]
    rw [prevSibling_eq e1 hl1, hg1C l hlC]
    have : nx (s.kids x) l = none := by
      unfold nx; rw [List.head?_eq_none_iff, after_eq_nil_iff hCnd hlC]; exact hl
    simp [this]
  have hnextl : (h1.get l).nextSibling = .ok none := by
    rw [nextSibling_live hl1, hg1C l hlC]
    have : nx (s.kids x) l = none := by
      unfold nx; rw [List.head?_eq_none_iff, after_eq_nil_iff hCnd hlC]; exact hl
    simp [this]
  have hdisc : transplantDisconnect f l h1 = .ok () (h1.put x { h1.get x with first := none }) := by
    have hgp : (h1.get f).getParent = .ok (some x) := by rw [getParent_live hf1, hg1C f hfC]
    unfold transplantDisconnect
    simp only [M.run_bind, nbrOf_live hf1, M.read, hgp, hprevf, nbrOf_live hl1, hnextl]
    exact connect_p hx1
  generalize hh2 : h1.put x { h1.get x with first := none } = h2 at hdisc
  have hlen2 : h2.nbrs.length = s.size := by rw [← hh2]; simpa using hlen1
  have hget2 : ∀ y, h2.get y = if y = x then { h1.get x with first := none } else h1.get y := by
    intro y; rw [← hh2, get_put (live_lt hx1)]
  have hlive2 : ∀ c, c ∈ s.kids x → h2.live c := by
    intro c hc
    unfold Hier.live; rw [hget2 c, if_neg (hCx c hc)]; exact hlive1 c (hCa c hc)
  obtain ⟨h3, hrw, -, -⟩ := rewriteParents_eq (P := p) (l := l) (f := f) hCnd hCp (h := h2)
    (fuel := (s.kids x).length) hf hl (Nat.le_refl _) hlive2
    (by
      intro c hc _
      rw [hget2 c, if_neg (hCx c hc), hg1C c hc])
  have htrans : ∀ a b, TouchesH (pl.length + 2 * (s.kids x).length + 24) h1 (Hier.transplant f l p a b) := by
    intro a b
    unfold Hier.transplant
    refine TouchesH.bindRead (F := fun h => h.wouldMakeCyclicLinks f l p) hcycL (2 * (s.kids x).length + 21) (by omega) fun c _ => ?_
    cases c with
    | true => exact TouchesH.pure _
    | false =>
      refine TouchesH.bindOk (j := 9) (2 * (s.kids x).length + 12) (by omega) hdisc (TouchesH.disconnect f l) ?_
      have := TouchesH.bind (TouchesH.rewriteLoop hrw) fun _ _ => TouchesH.bind (j := 12) (k := 0) (TouchesH.reconnect f l p a b) fun _ _ =>
        TouchesH.pure (Except.ok () : Except StructureError Unit)
      exact this
  have hflv : (h.get x).firstLastChild h = .ok (some (f, l)) := by rw [ha.firstLastChild hv hx, hf, hl]; rfl
  unfold singleWith
  refine TouchesH.bindOk (pl.length + 2 * (s.kids x).length + 36) (by omega) (nbrOf_live hxl _) (TouchesH.nbrOf _ _) ?_
  refine TouchesH.bindOk (j := 1) (a := some (f, l)) (h' := h) (pl.length + 2 * (s.kids x).length + 35) (by omega) (by simp only [M.read, hflv])
    (TouchesH.read (LooksH.of (Looks.firstLastChild _))) ?_
  refine TouchesH.bindOk (j := 0) (a := some p) (h' := h) (pl.length + 2 * (s.kids x).length + 35) (by omega)
    (by simp only [M.read, getParent_live hxl, hpar, hp]) TouchesH.const ?_
  refine TouchesH.bindOk (j := 1) (a := s.prev x) (h' := h) (pl.length + 2 * (s.kids x).length + 34) (by omega)
    (by simp only [M.read, ha.prevSibling hv hx]) (TouchesH.read (LooksH.of (Looks.prevSibling _))) ?_
  refine TouchesH.bindOk (j := 0) (a := s.next x) (h' := h) (pl.length + 2 * (s.kids x).length + 34) (by omega)
    (by simp only [M.read, nextSibling_live hxl, hnx]) TouchesH.const ?_
  refine TouchesH.bindOk (j := 6) (pl.length + 2 * (s.kids x).length + 28) (by omega) hc1 (TouchesH.connectTriangle _ _ _) ?_
  refine TouchesH.bindOk (j := 2) (a := (f, l)) (h' := h1) (pl.length + 2 * (s.kids x).length + 26) (by omega)
    (by simp only [M.read, hrange]) (TouchesH.read (TouchesH.rangeNew f l)) ?_
  refine TouchesH.mono (TouchesH.bind (k := 2) (htrans _ _) fun r _ => ?_) (by omega)
  rcases r with e | ⟨⟩
  · exact TouchesH.panic _
  · refine TouchesH.bind (j := 1) (k := 1) (TouchesH.updNbr _ _ _) fun _ _ => hfin _

/-- A node without children or without parent. -/
theorem single_simple (ha : Agrees h s) (hv : s.Valid) {x : Nat} (hx : s.alive x = true) (hs : s.kids x = [] ∨ s.parent x = none)
    (fin : M Hier (Except StructureError Unit)) : TouchesH 20 h (singleWith fin x) := by
  have hxl := (ha.live_iff hv x).2 hx
  have hpar : (h.get x).parent = s.parent x := by rw [ha.get_alive hx]; rfl
  unfold singleWith
  refine TouchesH.bindOk 19 (by omega) (nbrOf_live hxl _) (TouchesH.nbrOf _ _) ?_
  refine TouchesH.bindRead (LooksH.of (Looks.firstLastChild _)) 18 (by omega) fun fl hfl => ?_
  rw [ha.firstLastChild hv hx] at hfl
  rcases fl with _ | ⟨f, l⟩
  · exact TouchesH.mono (TouchesH.bind (k := 0) (TouchesH.detach x) fun _ _ => TouchesH.pure _) (by omega)
  · have hp : s.parent x = none := by
      rcases hs with e | e
      · rw [e] at hfl; cases hfl
      · exact e
    refine TouchesH.bindOk (j := 0) (a := none) (h' := h) 18 (by omega) (by simp only [M.read, getParent_live hxl, hpar, hp]) TouchesH.const ?_
    dsimp only
    split
    · exact TouchesH.pure _
    · exact TouchesH.bind (j := 9) (k := 9) (TouchesH.detach f) fun _ _ => TouchesH.bind (k := 0) (TouchesH.detach x) fun _ _ => TouchesH.pure _
theorem single_dead (ha : Agrees h s) (hv : s.Valid) {x : Nat} (hx : s.alive x = false)
    (fin : M Hier (Except StructureError Unit)) : TouchesH 1 h (singleWith fin x) := by
  unfold singleWith
  refine TouchesH.bindNbr 0 (by omega) fun nb hnb => ?_
  exfalso
  have : h.live x := by
    unfold Hier.live
    have h1 := nbr_live hnb
    unfold Hier.neighbors at hnb
    cases e : h.nbrs[x]? with
    | none => rw [e] at hnb; cases hnb
    | some v =>
      rw [e, Option.filter_some] at hnb
      split at hnb
      · cases hnb
        simpa [Hier.get, e] using h1
      · cases hnb
  rw [(ha.live_iff hv x).1 this] at hx
  cases hx

theorem finDebug (x : Nat) (g : Hier) : TouchesH 1 g (do
    let nb ← Hier.nbrOf x "[precondition] the node must be alive"
    let fc ← M.read fun _ => nb.firstChild
    if fc ≠ none then M.panic "[consistency] the children have been transplanted"
    else pure (.ok ()) : M Hier (Except StructureError Unit)) := by
  refine TouchesH.bindNbr 0 (by omega) fun nb _ => TouchesH.bindConst fun fc _ => ?_
  split
  · exact TouchesH.panic _
  · exact TouchesH.pure _

variable {T : Type} {cap um : Nat} {f : Forest T}
theorem single_exec (b : Build) (x n : Nat) (hb : ∀ fin : M Hier (Except StructureError Unit), (∀ g, TouchesH 1 g fin) →
    TouchesH n f.hier (singleWith fin x)) : Touches n f fun g => b.exec cap um g (.detachSingle x) := by
  cases b with
  | debug => exact Touches.onHier (Ans.ofExcept (T := T)) (singleWith_debug x ▸ hb _ (finDebug x))
  | release => exact Touches.onHier (Ans.ofExcept (T := T)) (singleWith_release x ▸ hb _ fun g => TouchesH.mono (TouchesH.pure (h := g) _) (Nat.zero_le 1))

end Treena
