import Verif.Proof.LooksMut
import Verif.Proof.FuelLoops
import Verif.Proof.Paths
/-!
# How much of a forest `insert` looks at
-/
set_option autoImplicit false
namespace Treena
variable {T : Type} {α β γ : Type} {j k n : Nat} {cap um : Nat}

/-- `Forest.TopWithin` for the links. -/
def Hier.TopWithin (h : Hier) : Nat → Nat → Prop
  | 0, _ => False
  | n + 1, x => ∀ p, (h.neighbors x).bind Neighbors.parent = some p → h.TopWithin n p
theorem Forest.topWithin_iff {f : Forest T} : ∀ {n x : Nat}, f.TopWithin n x ↔ f.hier.TopWithin n x
  | 0, _ => Iff.rfl
  | n + 1, x => forall_congr' fun p => imp_congr_right fun _ => topWithin_iff (n := n) (x := p)
theorem Hier.TopWithin.more {h : Hier} : ∀ {n x : Nat}, h.TopWithin n x → ∀ {m}, n ≤ m → h.TopWithin m x
  | 0, _, e, _, _ => e.elim
  | n + 1, x, e, 0, hm => absurd hm (by omega)
  | n + 1, x, e, m + 1, hm => fun p hp => (e p hp).more (by omega)
theorem Hier.TopWithin.up {h : Hier} {n x p : Nat} {nb : Neighbors} (e : h.TopWithin n x) (hn : h.neighbors x = some nb) (hp : nb.parent = some p) :
    h.TopWithin n p := by
  cases n with
  | zero => exact e.elim
  | succ n => exact (e p (by simp [hn, hp])).more (by omega)
theorem Hier.TopWithin.pos {h : Hier} {n x : Nat} (e : h.TopWithin n x) : 0 < n := by
  cases n with
  | zero => exact e.elim
  | succ n => omega

/-- In a forest as it should be: the length of the path to the root. -/
theorem UpPath.topWithin {h : Hier} {par : Nat → Option Nat} {x : Nat} {l : List Nat} (hp : UpPath par x l) (hr : ReadsPath h par l) :
    h.TopWithin l.length x := by
  induction hp with
  | @root x h0 =>
    intro p hp
    obtain ⟨hl, e⟩ := hr x (by simp)
    rw [Hier.neighbors_live hl] at hp
    simp [e, h0] at hp
  | @step x p l h0 _ ih =>
    intro q hq
    obtain ⟨hl, e⟩ := hr x (by simp)
    rw [Hier.neighbors_live hl] at hq
    simp [e, h0] at hq
    subst hq
    exact ih fun y hy => hr y (by simp [hy])

theorem meet_more {h : Hier} {r : Nat} : ∀ {F : Nat} {st : Ancestors.St}, Hier.ancestorsMeet h r F st ≠ .error .diverge →
    ∀ k, Hier.ancestorsMeet h r (F + k) st = Hier.ancestorsMeet h r F st
  | 0, _, e, _ => absurd rfl e
  | F + 1, st, e, k => by
    rw [Nat.add_right_comm]
    unfold Hier.ancestorsMeet at e ⊢
    cases hv : Ancestors.next h st with
    | error x => rfl
    | ok v =>
      rcases v with ⟨_ | a, st'⟩
      · rfl
      · rw [hv] at e
        dsimp only at e ⊢
        split
        · rfl
        · rename_i hne
          rw [if_neg hne] at e
          exact meet_more e k
theorem meet_loop {h : Hier} {r F : Nat} {st : Ancestors.St} (e : Hier.ancestorsMeet h r F st ≠ .error .diverge) :
    Hier.ancestorsMeet h r h.loopFuel st = Hier.ancestorsMeet h r F st := by
  rw [← meet_more e h.loopFuel, ← ancestorsMeet_fuel r st F, Nat.add_comm]

namespace Looks
variable {f : Forest T}
/-- A round of the loop. -/
def meetRound (r x n : Nat) (v : Option Neighbors) (g : Forest T) : R Bool :=
  match v with
  | none => .error (.panic "[consistency] the node being traversed must be alive")
  | some nb => if x = r then .ok true else Hier.ancestorsMeet g.hier r (n + 1) nb.parent
theorem meetFuel (r : Nat) : ∀ (n x : Nat), f.hier.TopWithin n x →
    Looks n f (fun g => Hier.ancestorsMeet g.hier r (n + 1) (some x)) ∧ Hier.ancestorsMeet f.hier r (n + 1) (some x) ≠ .error .diverge
  | 0, _, e => e.elim
  | n + 1, x, e => by
    have round : ∀ g : Forest T, Hier.ancestorsMeet g.hier r (n + 1 + 1) (some x) = meetRound r x n (g.hier.neighbors x) g := by
      intro g
      rw [Hier.ancestorsMeet, anc_next_some, meetRound.eq_def]
      cases g.hier.neighbors x <;> rfl
    have rest : Looks n f (fun g => meetRound r x n (f.hier.neighbors x) g) ∧ meetRound r x n (f.hier.neighbors x) f ≠ .error .diverge := by
      cases hn : f.hier.neighbors x with
      | none => exact ⟨const _, nofun⟩
      | some nb =>
        by_cases hx : x = r
        · simp only [meetRound, if_pos hx]
          exact ⟨const _, nofun⟩
        · simp only [meetRound, if_neg hx]
          cases hp : nb.parent with
          | none =>
            simp only [Hier.ancestorsMeet, Ancestors.next]
            exact ⟨const _, nofun⟩
          | some p => exact meetFuel r n p (e p (by simp [hn, hp]))
    refine ⟨?_, by rw [round]; exact rest.2⟩
    refine on (K := fun v g => meetRound r x n v g) (nbr x) n (by omega) (fun g v h => ?_) fun v hv => ?_
    · rw [round, h]
    · rw [← hv]; exact rest.1
theorem meet (r : Nat) {x : Nat} (e : f.hier.TopWithin n x) : Looks n f fun g => Hier.ancestorsMeet g.hier r g.hier.loopFuel (some x) := by
  obtain ⟨⟨L, l, h1⟩, h2⟩ := meetFuel r n x e
  refine ⟨L, l, fun g hg => ?_⟩
  have := h1 g hg
  dsimp only at this ⊢
  rw [meet_loop h2, ← this, meet_loop]
  rw [this]; exact h2
theorem cyclic (x : Nat) {p : Nat} (e : f.hier.TopWithin n p) : Looks (2 + n) f fun g => Hier.wouldMakeCyclicLinks g.hier x x p := by
  unfold Hier.wouldMakeCyclicLinks
  look (nbr x) (1 + n) with (_ | nb)
  simp only [expect, if_true]
  unfold Ancestors.withStart
  look (hierAlive p) n with (_ | _)
  exact meet x e
end Looks

namespace TouchesH
variable {h : Hier}
theorem bindRead {m : Nat} {F : Hier → R α} {c : α → M Hier β} (hF : LooksH j h F) (k : Nat) (hm : j + k ≤ m)
    (hc : ∀ a, F h = .ok a → TouchesH k h (c a)) : TouchesH m h (M.read F >>= c) := by
  refine mono (bind (read hF) fun a ha => ?_) hm
  unfold M.read at ha ⊢
  cases hv : F h with
  | error e => rw [hv] at ha; cases ha
  | ok v => rw [hv] at ha; cases ha; exact hc _ hv
theorem bindConst {m : Nat} {r : R α} {c : α → M Hier β} (hc : ∀ a, r = .ok a → TouchesH m h (c a)) : TouchesH m h (M.read (fun _ => r) >>= c) :=
  bindRead (j := 0) ⟨[], Nat.le_refl _, fun _ _ => rfl⟩ m (by omega) hc
theorem bindNbr {m : Nat} {x : Nat} {msg : String} {c : Neighbors → M Hier β} (k : Nat) (hm : 1 + k ≤ m)
    (hc : ∀ nb, h.neighbors x = some nb → TouchesH k h (c nb)) : TouchesH m h (Hier.nbrOf x msg >>= c) := by
  refine bindRead (F := fun h => expect (h.neighbors x) msg) (LooksH.of (by look (Looks.nbr x) 0 with (_ | _) <;> exact Looks.const _)) k hm fun nb e => hc nb ?_
  cases hn : h.neighbors x with
  | none => rw [hn] at e; cases e
  | some nb' => rw [hn] at e; cases e; rfl

theorem disconnect (x y : Nat) : TouchesH 9 h (Hier.transplantDisconnect x y) := by
  unfold Hier.transplantDisconnect
  refine bindNbr 8 (by omega) fun nb _ => bindConst fun p _ => bindRead (LooksH.of (Looks.prevSibling nb)) 7 (by omega) fun a _ =>
    bindNbr 6 (by omega) fun nb' _ => bindConst fun b _ => connectTriangle _ _ _
theorem reconnect (x y p : Nat) (a b : Option Nat) : TouchesH 12 h (Hier.transplantConnect x y p a b) := by
  unfold Hier.transplantConnect
  dsimp only
  split
  · refine bind (j := 6) (k := 6) (connectTriangle _ _ _) fun _ _ => ?_
    split
    · exact connectTriangle _ _ _
    · exact pure _
  · split
    · exact mono (connectTriangle _ _ _) (by omega)
    · exact pure _
theorem rewriteOne (x p : Nat) : TouchesH 1 h (do
    let fuel ← M.read fun h => .ok (Hier.loopFuel h)
    Hier.rewriteParents p x fuel (some x)) := by
  rw [show (do
      let fuel ← M.read fun h => .ok (Hier.loopFuel h)
      Hier.rewriteParents p x fuel (some x) : M Hier Unit) =
    if x = p then M.panic "[consistency] possibility of ancestor-descendant loop is already tested"
    else Hier.updNbr x "[consistency] nodes in the range must be alive" fun nb => { nb with parent := some p } from ?_]
  · split
    · exact panic _
    · exact updNbr _ _ _
  · funext g
    simp only [M.run_bind, M.read, Hier.loopFuel, Hier.rewriteParents]
    split
    · rfl
    · simp only [if_true, M.run_bind]
      cases Hier.updNbr x "[consistency] nodes in the range must be alive" (fun nb => { nb with parent := some p }) g <;> rfl
theorem transplantOne (x : Nat) {p : Nat} (a b : Option Nat) (e : h.TopWithin n p) : TouchesH (n + 24) h (Hier.transplant x x p a b) := by
  unfold Hier.transplant
  refine bindRead (F := fun h => h.wouldMakeCyclicLinks x x p) (LooksH.of (Looks.cyclic x e)) 22 (by omega) fun c _ => ?_
  cases c with
  | true => exact pure _
  | false =>
    refine bind (j := 9) (k := 13) (disconnect x x) fun _ _ => ?_
    have := fun h' : Hier => bind (h := h') (rewriteOne x p) fun _ _ => bind (j := 12) (k := 0) (reconnect x x p a b) fun _ _ =>
      pure (Except.ok () : Except StructureError Unit)
    exact this _
theorem single (x : Nat) : LooksH 1 h fun h => h.rangeSingle x := by
  refine LooksH.of ?_
  unfold Hier.rangeSingle
  look (Looks.hierAlive x) 0 with (_ | _)
theorem single_eq {x : Nat} {r : Nat × Nat} (e : h.rangeSingle x = .ok r) : r = (x, x) := by
  unfold Hier.rangeSingle at e
  split at e
  · cases e
  · cases e; rfl
theorem insert (x : Nat) (d : InsertAs) (e : h.TopWithin n d.toAnchor) : TouchesH (n + 27) h (Hier.insert x d) := by
  cases d with
  | firstChildOf p =>
    refine bindNbr (n + 26) (by omega) fun nb _ => bindConst fun c _ => bindRead (single x) (n + 25) (by omega) fun r hr => ?_
    cases single_eq hr
    exact mono (transplantOne x _ _ e) (by omega)
  | lastChildOf p =>
    refine bindNbr (n + 26) (by omega) fun nb _ => bindRead (LooksH.of (Looks.lastChild nb)) (n + 25) (by omega) fun c _ =>
      bindRead (single x) (n + 24) (by omega) fun r hr => ?_
    cases single_eq hr
    exact transplantOne x _ _ e
  | previousSiblingOf s =>
    unfold Hier.insert Hier.insertBefore
    dsimp only
    split
    · exact pure _
    · refine bindNbr (n + 26) (by omega) fun nb hnb => bindConst fun po hpo => bindConst fun p hp =>
        bindRead (LooksH.of (Looks.prevSibling nb)) (n + 25) (by omega) fun c _ => bindRead (single x) (n + 24) (by omega) fun r hr => ?_
      cases single_eq hr
      refine transplantOne x _ _ (e.up hnb ?_)
      simp only [Neighbors.getParent, nbr_live hnb] at hpo
      cases hpo
      cases hq : nb.parent with
      | none => rw [hq] at hp; cases hp
      | some q => rw [hq] at hp; cases hp; rfl
  | nextSiblingOf s =>
    unfold Hier.insert Hier.insertAfter
    dsimp only
    split
    · exact pure _
    · refine bindNbr (n + 26) (by omega) fun nb hnb => bindConst fun po hpo => bindConst fun p hp =>
        bindConst fun c _ => bindRead (single x) (n + 25) (by omega) fun r hr => ?_
      cases single_eq hr
      refine mono (transplantOne x _ _ (e.up hnb ?_)) (by omega)
      simp only [Neighbors.getParent, nbr_live hnb] at hpo
      cases hpo
      cases hq : nb.parent with
      | none => rw [hq] at hp; cases hp
      | some q => rw [hq] at hp; cases hp; rfl
end TouchesH

theorem Touches.insert {f : Forest T} (b : Build) (x : Nat) (d : InsertAs) (e : f.TopWithin n d.toAnchor) :
    Touches (n + 27) f fun g => b.exec cap um g (.insert x d) := by
  exact onHier _ (TouchesH.insert x d (Forest.topWithin_iff.mp e))

namespace Touches
variable {f : Forest T}
theorem guard {A : Type} {F : Forest T → Forest T × A} {a : A} (y : Nat) (hF : Touches k f F) :
    Touches (1 + k) f fun g => if g.isAlive y then F g else (g, a) := by
  obtain ⟨L, l, e⟩ := hF
  refine ⟨y :: L, by simp; omega, fun g hg => ?_⟩
  have hy : g.isAlive y = f.isAlive y := by unfold Forest.isAlive; rw [(hg y (by simp)).2]
  have e0 := e f fun _ _ => ⟨rfl, rfl⟩
  dsimp only
  rw [hy]
  cases f.isAlive y with
  | false => exact ⟨rfl, hg, fun _ _ => ⟨rfl, rfl⟩⟩
  | true =>
    obtain ⟨e1, e2, e3⟩ := e g fun x hx => hg x (by simp [hx])
    refine ⟨e1, fun x hx => ?_, fun x hx => e3 x fun h => hx (by simp [h])⟩
    by_cases h : x ∈ L
    · exact e2 x h
    · have a1 := e3 x h
      have a2 := e0.2.2 x h
      have a3 := hg x hx
      exact ⟨a1.1.trans (a3.1.trans a2.1.symm), a1.2.trans (a3.2.trans a2.2.symm)⟩
theorem tryAdopt (b : Build) (y x : Nat) (d : AdoptAs) (e : f.TopWithin n y) : Touches (n + 28) f fun g => b.exec cap um g (.tryAdopt y x d) := by
  have e' : f.hier.TopWithin n (d.insertWithAnchor y).toAnchor := by
    cases d <;> exact Forest.topWithin_iff.mp e
  have := guard (a := (.absent : Ans T)) y (onHier (f := f) (Ans.ofExcept (T := T)) (TouchesH.insert x _ e'))
  obtain ⟨L, l, h⟩ := this
  exact ⟨L, by omega, h⟩
theorem adopt (b : Build) (y x : Nat) (d : AdoptAs) (e : f.TopWithin n y) : Touches (n + 28) f fun g => b.exec cap um g (.adopt y x d) := by
  have e' : f.hier.TopWithin n (d.insertWithAnchor y).toAnchor := by
    cases d <;> exact Forest.topWithin_iff.mp e
  have hb : TouchesH (n + 27) f.hier (Hier.insert x (d.insertWithAnchor y) >>= fun r => match r with
      | .error _ => M.panic "[precondition] structure to be made should be valid"
      | .ok () => pure () : M Hier Unit) :=
    TouchesH.bind (k := 0) (TouchesH.insert x _ e') fun r _ => by
      rcases r with _ | ⟨⟩
      · exact TouchesH.panic _
      · exact TouchesH.pure _
  have := guard (a := (.absent : Ans T)) y (onHier (f := f) (fun _ => (.done : Ans T)) hb)
  obtain ⟨L, l, h⟩ := this
  refine ⟨L, by omega, fun g hg => ?_⟩
  have key : ∀ g : Forest T, b.exec cap um g (.adopt y x d) = if g.isAlive y then Ans.ofRes (fun _ => (.done : Ans T)) (Forest.onHier (Hier.insert x (d.insertWithAnchor y) >>= fun r => match r with
      | .error _ => M.panic "[precondition] structure to be made should be valid"
      | .ok () => Pure.pure () : M Hier Unit) g) else (g, .absent) := by
    intro g
    simp only [Build.exec, Req.exec, NodeMut.adopt, NodeMut.tryAdopt, Forest.onHier, M.zoom, M.run_bind]
    split
    · cases Hier.insert x (d.insertWithAnchor y) g.hier with
      | fail e s => rfl
      | ok r s => rcases r with _ | ⟨⟩ <;> rfl
    · rfl
  dsimp only
  rw [key, key]
  exact h g hg
end Touches
end Treena
