import Verif.Spec.Hang
/-!
# The calls without a loop end
-/
set_option autoImplicit false

namespace Treena
variable {T : Type} {α β : Type} {f : Forest T} {h : Hier} {cap um : Nat}

/-- The call returns or panics. -/
def Halts (r : R α) : Prop := r ≠ .error .diverge
/-- The same for a mutating call. -/
def HaltsM {σ : Type} (r : Res σ α) : Prop := ∀ s, r ≠ .fail .diverge s

namespace Halts

theorem expect (o : Option α) (msg : String) : Halts (expect o msg) := by cases o <;> nofun
theorem ok (a : α) : Halts (.ok a : R α) := nofun
theorem error {e : Fail} {r : R α} (hr : Halts r) (e' : r = .error e) : Halts (.error e : R β) := by
  rintro e2; cases e2; exact hr e'

theorem getParent (nb : Neighbors) : Halts nb.getParent := by unfold Neighbors.getParent; split <;> nofun
theorem nextSibling (nb : Neighbors) : Halts nb.nextSibling := by unfold Neighbors.nextSibling; split <;> nofun
theorem firstChild (nb : Neighbors) : Halts nb.firstChild := by unfold Neighbors.firstChild; split <;> nofun
theorem prevSibling (nb : Neighbors) : Halts (nb.prevSibling h) := by
  unfold Neighbors.prevSibling; split
  · nofun
  · split <;> nofun
theorem firstLastChild (nb : Neighbors) : Halts (nb.firstLastChild h) := by
  unfold Neighbors.firstLastChild
  split
  · nofun
  · split
    · rename_i e; exact error (firstChild nb) e
    · nofun
    · split
      · nofun
      · split <;> nofun
theorem lastChild (nb : Neighbors) : Halts (nb.lastChild h) := by
  unfold Neighbors.lastChild; split
  · rename_i e; exact error (firstLastChild nb) e
  · nofun
theorem travNbr (x : Nat) : Halts (travNbr h x) := by unfold Treena.travNbr; exact expect _ _
theorem isAlone (nb : Neighbors) : Halts nb.isAlone := by unfold Neighbors.isAlone; split <;> nofun
theorem depthPred (d : Nat) : Halts (Shallow.depthPred d) := by unfold Shallow.depthPred; split <;> nofun

/-- Follow the `match`es. -/
macro "ends" : tactic => `(tactic| repeat' (first
  | (with_reducible exact Halts.ok _) | (intro e; cases e; done)
  | (rename_i e; with_reducible exact error (expect _ _) e)
  | (rename_i e; with_reducible exact error (getParent _) e)
  | (rename_i e; with_reducible exact error (nextSibling _) e)
  | (rename_i e; with_reducible exact error (firstChild _) e)
  | (rename_i e; with_reducible exact error (prevSibling _) e)
  | (rename_i e; with_reducible exact error (firstLastChild _) e)
  | (rename_i e; with_reducible exact error (lastChild _) e)
  | (rename_i e; with_reducible exact error (travNbr _) e)
  | (rename_i e; with_reducible exact error (depthPred _) e)
  | (with_reducible exact getParent _) | (with_reducible exact nextSibling _) | (with_reducible exact firstChild _)
  | (with_reducible exact prevSibling _) | (with_reducible exact firstLastChild _) | (with_reducible exact lastChild _)
  | (with_reducible exact expect _ _)
  | split))

theorem dftFwd (e : Ev Nat) : Halts (Dft.stepFwd h e) := by unfold Dft.stepFwd; ends
theorem dftBack (e : Ev Nat) : Halts (Dft.stepBack h e) := by unfold Dft.stepBack; ends
theorem sibFwd (n : Nat) : Halts (Siblings.stepFwd h n) := by unfold Siblings.stepFwd; ends
theorem sibBack (n : Nat) : Halts (Siblings.stepBack h n) := by unfold Siblings.stepBack; ends
theorem shFwd (m : Option Nat) (e : Ev Nat × Nat) : Halts (Shallow.stepFwd h m e) := by unfold Shallow.stepFwd; ends
theorem shBack (m : Option Nat) (e : Ev Nat × Nat) : Halts (Shallow.stepBack h m e) := by unfold Shallow.stepBack; ends

theorem deNext {ε : Type} [DecidableEq ε] {stepF : ε → R (Option ε)} (hs : ∀ e, Halts (stepF e)) (st : Option (ε × ε)) :
    Halts (deNext stepF st) := by
  unfold Treena.deNext
  split
  · nofun
  · split
    · nofun
    · split
      · rename_i e; exact error (hs _) e
      · nofun
      · nofun
theorem deNextBack {ε : Type} [DecidableEq ε] {stepF : ε → R (Option ε)} (hs : ∀ e, Halts (stepF e)) (st : Option (ε × ε)) :
    Halts (deNextBack stepF st) := by
  unfold Treena.deNextBack
  split
  · nofun
  · split
    · nofun
    · split
      · rename_i e; exact error (hs _) e
      · nofun
      · nofun

theorem nodeAt (x : Nat) : Halts (f.nodeAt x) := expect _ _
theorem nodeData (x : Nat) : Halts (f.nodeData x) := expect _ _
theorem emit {ι σ : Type} {idOf : ι → Nat} {r : R (Option ι × σ)} (hr : Halts r) : Halts (f.emit idOf r) := by
  unfold Forest.emit
  split
  · rename_i e _; exact error hr rfl
  · nofun
  · split
    · rename_i e; exact error (nodeAt _) e
    · nofun
theorem emitPeek {ι : Type} {idOf : ι → Nat} {r : R (Option ι)} (hr : Halts r) : Halts (f.emitPeek idOf r) := by
  unfold Forest.emitPeek
  split
  · exact error hr rfl
  · nofun
  · split
    · rename_i e; exact error (nodeAt _) e
    · nofun
theorem iterNew {σ : Type} {x : Nat} {mk : Nat → Hier → R σ} (hm : ∀ n, Halts (mk n f.hier)) : Halts (f.iterNew x mk) := by
  unfold Forest.iterNew
  split
  · rename_i e; exact error (expect _ _) e
  · exact hm _
theorem skipped {ι σ : Type} {adv : σ → R (Option ι × σ)} {r : R σ} (ha : ∀ s, Halts (adv s)) (hr : Halts r) :
    Halts (Forest.skipped adv r) := by
  unfold Forest.skipped
  split
  · exact error hr rfl
  · split
    · rename_i e; exact error (ha _) e
    · nofun

theorem dftNext (st : Dft.St) : Halts (f.dftNext st) := emit (deNext dftFwd _)
theorem dftNextBack (st : Dft.St) : Halts (f.dftNextBack st) := emit (deNextBack dftBack _)
theorem siblingsNext (st : Siblings.St) : Halts (f.siblingsNext st) := emit (deNext sibFwd _)
theorem siblingsNextBack (st : Siblings.St) : Halts (f.siblingsNextBack st) := emit (deNextBack sibBack _)
theorem shallowNext (st : Shallow.St) : Halts (f.shallowNext st) := by
  refine emit ?_
  unfold Shallow.next
  split
  · rename_i e; exact error (deNext (shFwd _) _) e
  · nofun
theorem shallowNextBack (st : Shallow.St) : Halts (f.shallowNextBack st) := by
  refine emit ?_
  unfold Shallow.nextBack
  split
  · rename_i e; exact error (deNextBack (shBack _) _) e
  · nofun
theorem ancNext (st : Ancestors.St) : Halts (Ancestors.next h st) := by unfold Ancestors.next; ends
theorem ancestorsNext (st : Ancestors.St) : Halts (f.ancestorsNext st) := emit (ancNext st)

theorem depthFirstTraverse (x : Nat) : Halts (f.depthFirstTraverse x) :=
  iterNew fun n => by unfold Dft.withToplevel; ends
theorem shallowDepthFirstTraverse (x : Nat) (m : Option Nat) : Halts (f.shallowDepthFirstTraverse um x m) :=
  iterNew fun n => by unfold Shallow.withToplevelAndMaxDepth; ends
theorem breadthFirstTraverse (x : Nat) : Halts (f.breadthFirstTraverse um x) :=
  iterNew fun n => by
    unfold Bft.withToplevel Shallow.withToplevelAndMaxDepth; ends
theorem allocatingBreadthFirstTraverse (x : Nat) : Halts (f.allocatingBreadthFirstTraverse x) :=
  iterNew fun n => by unfold ABft.withToplevel; ends
theorem ancestorsOrSelf (x : Nat) : Halts (f.ancestorsOrSelf x) := iterNew fun n => by unfold Ancestors.withStart; ends
theorem ancestors (x : Nat) : Halts (f.ancestors x) := skipped ancestorsNext (ancestorsOrSelf x)
theorem rowOf (x : Nat) (k : Row) : Halts (Req.rowOf f x k) := by
  have h1 : Halts (f.followingSiblingsOrSelf x) := iterNew fun n => by unfold Siblings.withFirstSibling; ends
  have h2 : Halts (f.precedingSiblingsOrSelf x) := iterNew fun n => by unfold Siblings.withLastSibling; ends
  cases k
  · exact iterNew fun n => by unfold Siblings.withParent; ends
  · exact skipped siblingsNext h1
  · exact h1
  · exact skipped siblingsNextBack h2
  · exact h2

theorem drive {ι σ : Type} {next nextBack : σ → R (Option ι × σ)} (h1 : ∀ s, Halts (next s)) (h2 : ∀ s, Halts (nextBack s)) :
    ∀ (ds : List Dir) (st : σ), Halts (drive next nextBack st ds)
  | [], _ => nofun
  | d :: ds, st => by
    cases d <;> unfold Treena.drive <;> dsimp only
    all_goals
      split
      · rename_i e; first | exact error (h1 _) e | exact error (h2 _) e
      · split
        · rename_i e; exact error (drive h1 h2 ds _) e
        · nofun
theorem pull {ι σ : Type} {next : σ → R (Option ι × σ)} (h1 : ∀ s, Halts (next s)) : ∀ (n : Nat) (st : σ), Halts (pull next n st)
  | 0, _ => nofun
  | n + 1, st => by
    unfold Treena.pull
    split
    · rename_i e; exact error (h1 _) e
    · split
      · rename_i e; exact error (pull h1 n _) e
      · nofun
theorem iterate {ι σ : Type} {next nextBack : σ → R (Option ι × σ)} (h1 : ∀ s, Halts (next s)) (h2 : ∀ s, Halts (nextBack s))
    {start : R σ} (hs : Halts start) (ds : List Dir) : Halts (Req.iterate next nextBack start ds) := by
  unfold Req.iterate
  split
  · exact drive h1 h2 ds _
  · exact error hs rfl
theorem iterate1 {ι σ : Type} {next : σ → R (Option ι × σ)} (h1 : ∀ s, Halts (next s))
    {start : R σ} (hs : Halts start) (n : Nat) : Halts (Req.iterate1 next start n) := by
  unfold Req.iterate1
  split
  · exact pull h1 n _
  · exact error hs rfl

theorem linkOf (x : Nat) (k : Link) : Halts (Req.linkOf f x k) := by
  have hn : Halts (f.nbr x) := expect _ _
  cases k
  · show Halts (f.parentId x); unfold Forest.parentId; (split; (· (rename_i e; exact error hn e)); (· exact getParent _))
  · show Halts (f.nextSiblingId x); unfold Forest.nextSiblingId; (split; (· (rename_i e; exact error hn e)); (· exact nextSibling _))
  · show Halts (f.prevSiblingId x); unfold Forest.prevSiblingId; (split; (· (rename_i e; exact error hn e)); (· exact prevSibling _))
  · show Halts (f.firstChildId x); unfold Forest.firstChildId; (split; (· (rename_i e; exact error hn e)); (· exact firstChild _))
  · show Halts (f.lastChildId x); unfold Forest.lastChildId; (split; (· (rename_i e; exact error hn e)); (· exact lastChild _))
theorem firstLastChildId (x : Nat) : Halts (f.firstLastChildId x) := by
  unfold Forest.firstLastChildId; (split; (· (rename_i e; exact error (expect _ _) e)); (· exact Halts.firstLastChild _))
theorem map {r : R α} (g : α → β) (hr : Halts r) : Halts (r.map g) := by
  cases r with
  | ok a => nofun
  | error e => exact error hr rfl
theorem nearOf (x : Nat) (k : Link) : Halts (Req.nearOf f x k) := by
  unfold Req.nearOf
  split
  · rename_i e
    refine error (r := f.viaNode (Req.linkOf f x k)) ?_ e
    unfold Forest.viaNode
    split
    · rename_i e; exact error (linkOf x k) e
    · nofun
    · split
      · rename_i e; exact error (nodeAt _) e
      · nofun
  · nofun
  · exact map _ (nodeData _)
theorem nearEndsOf (x : Nat) : Halts (Req.nearEndsOf f x) := by
  unfold Req.nearEndsOf
  split
  · rename_i e
    refine error (r := f.firstLastChild x) ?_ e
    unfold Forest.firstLastChild
    split
    · rename_i e; exact error (firstLastChildId x) e
    · nofun
    · split
      · rename_i e; exact error (nodeAt _) e
      · split
        · rename_i e; exact error (nodeAt _) e
        · nofun
  · nofun
  · split
    · rename_i e; exact error (nodeData _) e
    · exact map _ (nodeData _)

end Halts

namespace HaltsM
variable {σ : Type}

theorem pure (a : α) (s : σ) : HaltsM ((Pure.pure a : M σ α) s) := nofun
theorem bind {m : M σ α} {k : α → M σ β} {s : σ} (hm : HaltsM (m s)) (hk : ∀ a s', HaltsM (k a s')) : HaltsM ((m >>= k) s) := by
  show HaltsM (M.bind m k s)
  unfold M.bind
  split
  · exact hk _ _
  · rename_i e
    intro s2 e2; cases e2; exact hm _ e
theorem read {g : σ → R α} {s : σ} (hg : Halts (g s)) : HaltsM (M.read g s) := by
  unfold M.read
  split
  · nofun
  · rename_i e; intro s2 e2; cases e2; exact hg e
theorem nbrOf (x : Nat) (msg : String) (h : Hier) : HaltsM (Hier.nbrOf x msg h) := read (Halts.expect _ _)
theorem updNbr (x : Nat) (msg : String) (g : Neighbors → Neighbors) (h : Hier) : HaltsM (Hier.updNbr x msg g h) := by
  unfold Hier.updNbr; split <;> nofun

theorem connectTriangle (p a b : Option Nat) (h : Hier) : HaltsM (Hier.connectTriangle p a b h) := by
  unfold Hier.connectTriangle
  split
  · nofun
  · split
    · nofun
    · refine bind ?_ fun _ s => bind ?_ fun _ s => ?_
      · unfold Hier.connectPrev; (split; (· exact pure _ _); (· exact updNbr _ _ _ _))
      · unfold Hier.connectNext
        split
        · exact pure _ _
        · refine bind (read ?_) fun _ _ => updNbr _ _ _ _
          unfold Hier.nextChildPrevCyclic
          split
          · nofun
          · split
            · split
              · rename_i e; exact Halts.error (Halts.expect _ _) e
              · split
                · rename_i e; exact Halts.error (Halts.lastChild _) e
                · nofun
            · nofun
      · unfold Hier.connectParent
        split
        · exact pure _ _
        · split
          · exact updNbr _ _ _ _
          · split
            · exact pure _ _
            · exact bind (nbrOf _ _ _) fun _ _ => bind (read (Halts.firstChild _)) fun _ _ => bind (read (Halts.expect _ _)) fun _ _ => updNbr _ _ _ _

theorem detach (x : Nat) (h : Hier) : HaltsM (Hier.detach x h) := by
  unfold Hier.detach
  refine bind (nbrOf _ _ _) fun nb _ => bind (read (Halts.getParent _)) fun p _ => ?_
  cases p with
  | none => exact pure _ _
  | some p =>
    exact bind (read (Halts.prevSibling _)) fun _ _ => bind (read (Halts.nextSibling _)) fun _ _ => bind (connectTriangle _ _ _ _) fun _ _ => updNbr _ _ _ _

theorem onHier {m : M Hier α} {f : Forest T} (hm : HaltsM (m f.hier)) : HaltsM (Forest.onHier m f) := by
  unfold Forest.onHier M.zoom
  split
  · nofun
  · rename_i e; intro s2 e2; cases e2; exact hm _ e

end HaltsM

theorem ofR_ends {r : R α} {k : α → Ans T} (hr : Halts r) (hk : ∀ a, k a ≠ .hung) : Ans.ofR k r ≠ .hung := by
  cases r with
  | ok a => exact hk a
  | error e =>
    cases e with
    | panic m => nofun
    | diverge => exact absurd rfl hr
theorem ofRes_ends {r : Res (Forest T) α} {k : α → Ans T} (hr : HaltsM r) (hk : ∀ a, k a ≠ .hung) : (Ans.ofRes k r).2 ≠ .hung := by
  cases r with
  | ok a s => exact hk a
  | fail e s =>
    cases e with
    | panic m => nofun
    | diverge => exact absurd rfl (hr s)

end Treena
