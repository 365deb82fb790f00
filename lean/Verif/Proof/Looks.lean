import Verif.Spec.Looks
/-!
# How much of a forest a call looks at
-/
set_option autoImplicit false
namespace Treena
variable {T : Type} {α β γ : Type} {f : Forest T} {j k : Nat}
namespace Looks
theorem const (a : α) : Looks k f (fun _ => a) := ⟨[], Nat.zero_le _, fun _ _ => rfl⟩
theorem mono {F : Forest T → α} (h : Looks j f F) (hk : j ≤ k) : Looks k f F :=
  let ⟨L, l, e⟩ := h; ⟨L, Nat.le_trans l hk, e⟩
theorem step {F : Forest T → β} {C : β → Forest T → α} (hF : Looks j f F) (hC : Looks k f (C (F f))) :
    Looks (j + k) f (fun g => C (F g) g) := by
  obtain ⟨L, l, e⟩ := hF
  obtain ⟨L', l', e'⟩ := hC
  refine ⟨L ++ L', by simp; omega, fun g hg => ?_⟩
  show C (F g) g = C (F f) f
  rw [e g fun x hx => hg x (by simp [hx])]
  exact e' g fun x hx => hg x (by simp [hx])
theorem on {m : Nat} {F : Forest T → β} {G : Forest T → α} {K : β → Forest T → α} (hF : Looks j f F) (k : Nat) (hm : j + k ≤ m)
    (hc : ∀ g v, F g = v → G g = K v g) (hK : ∀ v, F f = v → Looks k f (K v)) : Looks m f G := by
  have := step (C := K) hF (hK _ rfl)
  refine mono ?_ hm
  rw [show G = fun g => K (F g) g from funext fun g => hc g _ rfl]
  exact this
/-- `look t k with p`: the slots that `t` is about, then `k` more. -/
macro "look " t:term:max k:term:max " with " p:rcasesPat : tactic => `(tactic|
  (refine on (K := ?K) $t $k (by omega) ?hc ?hK
   case hc =>
     intro g v h
     try dsimp only at h ⊢
     rw [h]
   intro v _
   rcases v with $p:rcasesPat <;> (try dsimp only) <;> try exact const _))

theorem nbr (x : Nat) : Looks 1 f fun g => g.hier.neighbors x :=
  ⟨[x], by simp, fun g hg => by unfold Hier.neighbors; dsimp only; rw [(hg x (by simp)).1]⟩
theorem trav (x : Nat) : Looks 1 f fun g => travNbr g.hier x :=
  ⟨[x], by simp, fun g hg => by unfold travNbr Hier.neighbors; dsimp only; rw [(hg x (by simp)).1]⟩
theorem prevSibling (nb : Neighbors) : Looks 1 f fun g => nb.prevSibling g.hier := by
  unfold Neighbors.prevSibling
  cases nb.prevCyc with
  | none => exact const _
  | some v => look (nbr v) 0 with (_ | a)
theorem firstLastChild (nb : Neighbors) : Looks 1 f fun g => nb.firstLastChild g.hier := by
  unfold Neighbors.firstLastChild
  split
  · exact const _
  · split
    · exact const _
    · exact const _
    · rename_i c _
      look (nbr c) 0 with (_ | a)
theorem lastChild (nb : Neighbors) : Looks 1 f fun g => nb.lastChild g.hier := by
  unfold Neighbors.lastChild
  look (firstLastChild nb) 0 with (e | a)
theorem dftFwd (e : Ev Nat) : Looks 1 f fun g => Dft.stepFwd g.hier e := by
  unfold Dft.stepFwd
  cases e with
  | opn x => look (trav x) 0 with (e | a)
  | cls x => look (trav x) 0 with (e | a)
theorem dftBack (e : Ev Nat) : Looks 2 f fun g => Dft.stepBack g.hier e := by
  unfold Dft.stepBack
  cases e with
  | opn x => 
    look (trav x) 1 with (e | nb)
    look (prevSibling nb) 0 with (e | a)
  | cls x =>
    look (trav x) 1 with (e | nb)
    look (lastChild nb) 0 with (e | a)

theorem sibFwd (n : Nat) : Looks 1 f fun g => Siblings.stepFwd g.hier n := by
  unfold Siblings.stepFwd
  look (trav n) 0 with (e | nb)
theorem sibBack (n : Nat) : Looks 2 f fun g => Siblings.stepBack g.hier n := by
  unfold Siblings.stepBack
  look (trav n) 1 with (e | nb)
  exact prevSibling nb
theorem shFwd (A : Arith) (m : Option Nat) (e : Ev Nat × Nat) : Looks 1 f fun g => Mach.Shallow.stepFwd A g.hier m e := by
  unfold Mach.Shallow.stepFwd
  rcases e with ⟨x | x, d⟩
  · dsimp only
    split
    · exact const _
    · look (trav x) 0 with (e | nb)
  · dsimp only
    look (trav x) 0 with (e | nb)
theorem shBack (A : Arith) (m : Option Nat) (e : Ev Nat × Nat) : Looks 2 f fun g => Mach.Shallow.stepBack A g.hier m e := by
  unfold Mach.Shallow.stepBack
  rcases e with ⟨x | x, d⟩
  · dsimp only
    look (trav x) 1 with (e | nb)
    look (prevSibling nb) 0 with (e | _ | a)
  · dsimp only
    split
    · exact const _
    · look (trav x) 1 with (e | nb)
      look (lastChild nb) 0 with (e | _ | a)

theorem deNext {ε : Type} [DecidableEq ε] {S : Forest T → ε → R (Option ε)} (hs : ∀ e, Looks k f fun g => S g e)
    (st : Option (ε × ε)) : Looks k f fun g => deNext (S g) st := by
  unfold Treena.deNext
  rcases st with _ | ⟨a, b⟩
  · exact const _
  · dsimp only
    split
    · exact const _
    · look (hs a) 0 with (e | _ | c)
theorem deNextBack {ε : Type} [DecidableEq ε] {S : Forest T → ε → R (Option ε)} (hs : ∀ e, Looks k f fun g => S g e)
    (st : Option (ε × ε)) : Looks k f fun g => deNextBack (S g) st := by
  unfold Treena.deNextBack
  rcases st with _ | ⟨a, b⟩
  · exact const _
  · dsimp only
    split
    · exact const _
    · look (hs b) 0 with (e | _ | c)

theorem isAlive (x : Nat) : Looks 1 f fun g => g.isAlive x :=
  ⟨[x], by simp, fun g hg => by unfold Forest.isAlive; dsimp only; rw [(hg x (by simp)).2]⟩
theorem hierAlive (x : Nat) : Looks 1 f fun g => g.hier.isAlive x :=
  ⟨[x], by simp, fun g hg => by unfold Hier.isAlive; dsimp only; rw [(hg x (by simp)).1]⟩
theorem nodeAt (x : Nat) : Looks 1 f fun g => g.nodeAt x :=
  ⟨[x], by simp, fun g hg => by unfold Forest.nodeAt Forest.node Forest.isAlive; dsimp only; rw [(hg x (by simp)).2]⟩
theorem nodeOrPanic (x : Nat) : Looks 1 f fun g => g.nodeOrPanic x :=
  ⟨[x], by simp, fun g hg => by unfold Forest.nodeOrPanic Forest.node Forest.isAlive; dsimp only; rw [(hg x (by simp)).2]⟩
theorem getData (x : Nat) : Looks 1 f fun g => g.getData x :=
  ⟨[x], by simp, fun g hg => by unfold Forest.getData; dsimp only; rw [(hg x (by simp)).2]⟩

theorem emit {ι σ : Type} {idOf : ι → Nat} {F : Forest T → R (Option ι × σ)} (hF : Looks k f F) :
    Looks (k + 1) f fun g => g.emit idOf (F g) := by
  unfold Forest.emit
  look hF 1 with (e | ⟨_ | i, st⟩)
  look (nodeAt (idOf i)) 0 with (e | a)
theorem emitPeek {ι : Type} {idOf : ι → Nat} (r : R (Option ι)) : Looks 1 f fun g => g.emitPeek idOf r := by
  unfold Forest.emitPeek
  rcases r with e | _ | i
  · exact const _
  · exact const _
  · dsimp only
    look (nodeAt (idOf i)) 0 with (e | a)

/-- Two looks at the same slot. -/
theorem on2 {m : Nat} {x : Nat} {F : Forest T → β} {F' : Forest T → γ} {G : Forest T → α} {K : β → γ → Forest T → α}
    (hF : ∀ g, AgreeAt [x] f g → F g = F f) (hF' : ∀ g, AgreeAt [x] f g → F' g = F' f) (k : Nat) (hm : 1 + k ≤ m)
    (hc : ∀ g v w, F g = v → F' g = w → G g = K v w g) (hK : ∀ v w, F f = v → F' f = w → Looks k f (K v w)) : Looks m f G :=
  on (F := fun g => (F g, F' g)) (K := fun v g => K v.1 v.2 g) ⟨[x], Nat.le_refl _, fun g hg => by simp only [hF g hg, hF' g hg]⟩ k hm
    (fun g v e => by subst e; exact hc g _ _ rfl rfl) fun v e => by subst e; exact hK _ _ rfl rfl

theorem ans {F : Forest T → R α} (c : α → Ans T) (hF : Looks k f F) : Looks k f fun g => Ans.ofR c (F g) := by
  refine on (K := fun v _ => Ans.ofR c v) hF 0 (Nat.le_refl _) (fun g v e => by rw [e]) fun v _ => const _


theorem viaNbr (x : Nat) {F : Neighbors → Forest T → R β} {n : Nat} (hn : ∀ nb, Looks n f (F nb)) {c : R β → Forest T → α} {a : α}
    {k : Nat} (hc : ∀ r, Looks k f (c r)) :
    Looks (1 + (n + k)) f fun g => if g.isAlive x then c (match g.nbr x with | .error e => .error e | .ok nb => F nb g) g else a := by
  refine on2 (x := x) (F := fun g => g.isAlive x) (F' := fun g => g.hier.neighbors x)
    (K := fun v w g => if v then c (match expect w "[validity] the node has been checked to be alive" with | .error e => .error e | .ok nb => F nb g) g else a)
    (fun g hg => by unfold Forest.isAlive; rw [(hg x (by simp)).2])
    (fun g hg => by unfold Hier.neighbors; rw [(hg x (by simp)).1]) (n + k) (Nat.le_refl _) ?_ ?_
  · intro g v w ev ew
    rw [Forest.nbr, ev, ew]
  · intro v w _ _
    cases v with
    | false => exact const _
    | true =>
      cases w with
      | none => exact mono (hc _) (by omega)
      | some nb => exact on (K := fun r g => c r g) (hn nb) k (Nat.le_refl _) (fun g v e => by subst e; rfl) fun v _ => hc v

/-- The slots a link is read from, without that of the node itself. -/
def linkCost : Link → Nat
  | .prev | .lastChild => 1
  | _ => 0
theorem linkOf (x : Nat) (l : Link) {c : R (Option Nat) → Forest T → α} {a : α} {k : Nat} (hc : ∀ r, Looks k f (c r)) :
    Looks (1 + (linkCost l + k)) f fun g => if g.isAlive x then c (Req.linkOf g x l) g else a := by
  cases l with
  | parent => exact viaNbr x (F := fun nb _ => nb.getParent) (n := 0) (fun nb => const _) hc
  | next => exact viaNbr x (F := fun nb _ => nb.nextSibling) (n := 0) (fun nb => const _) hc
  | prev => exact viaNbr x (F := fun nb g => nb.prevSibling g.hier) prevSibling hc
  | firstChild => exact viaNbr x (F := fun nb _ => nb.firstChild) (n := 0) (fun nb => const _) hc
  | lastChild => exact viaNbr x (F := fun nb g => nb.lastChild g.hier) lastChild hc
theorem ends (x : Nat) {c : R (Option (Nat × Nat)) → Forest T → α} {a : α} {k : Nat} (hc : ∀ r, Looks k f (c r)) :
    Looks (1 + (1 + k)) f fun g => if g.isAlive x then c (g.firstLastChildId x) g else a :=
  viaNbr x (F := fun nb g => nb.firstLastChild g.hier) firstLastChild hc

/-- A node and its datum. -/
theorem seen (y : Nat) {c : R Nat → R T → α} : Looks 1 f fun g => c (g.nodeAt y) (g.nodeData y) :=
  ⟨[y], by simp, fun g hg => by
    unfold Forest.nodeAt Forest.node Forest.isAlive Forest.nodeData Forest.getData
    dsimp only
    rw [(hg y (by simp)).2]⟩
theorem near (r : R (Option Nat)) : Looks 1 f fun g => (match g.viaNode r with
    | .error e => .error e
    | .ok none => .ok none
    | .ok (some y) => (g.nodeData y).map fun d => some (y, d) : R (Option (Nat × T))) := by
  unfold Forest.viaNode
  rcases r with e | _ | y
  · exact const _
  · exact const _
  · dsimp only
    have := seen (f := f) y (c := fun a b => (match a with
      | .error e => .error e
      | .ok n => b.map fun d => some (n, d) : R (Option (Nat × T))))
    refine on (K := fun v _ => v) this 0 (Nat.le_refl _) ?_ fun v _ => const _
    intro g v e
    rw [← e]
    have h : g.nodeAt y = .ok y ∨ ∃ e, g.nodeAt y = .error e := by
      unfold Forest.nodeAt Forest.node
      cases g.isAlive y
      · exact .inr ⟨_, rfl⟩
      · exact .inl rfl
    rcases h with h | ⟨e, h⟩ <;> rw [h]
theorem nearEnds (r : R (Option (Nat × Nat))) : Looks 2 f fun g => (match (match r with
    | .error e => .error e
    | .ok none => .ok none
    | .ok (some (first, last)) =>
      match g.nodeAt first with
      | .error e => .error e
      | .ok a =>
        match g.nodeAt last with
        | .error e => .error e
        | .ok b => .ok (some (a, b)) : R (Option (Nat × Nat))) with
    | .error e => .error e
    | .ok none => .ok none
    | .ok (some (y, z)) =>
      match g.nodeData y with
      | .error e => .error e
      | .ok d => (g.nodeData z).map fun d' => some ((y, d), z, d') : R (Option ((Nat × T) × Nat × T))) := by
  rcases r with e | _ | ⟨y, z⟩
  · exact const _
  · exact const _
  · dsimp only
    have at_ : ∀ (g : Forest T) (y : Nat), g.nodeAt y = .ok y ∨ ∃ e, g.nodeAt y = .error e := by
      intro g y
      unfold Forest.nodeAt Forest.node
      cases g.isAlive y
      · exact .inr ⟨_, rfl⟩
      · exact .inl rfl
    have h1 := seen (f := f) y (c := fun a b => (a, b))
    refine on (K := fun v g => ?_) h1 1 (Nat.le_refl _) ?_ fun v _ => ?_
    · exact (match (match v.1 with
        | .error e => .error e
        | .ok a =>
          match g.nodeAt z with
          | .error e => .error e
          | .ok b => .ok (some (a, b)) : R (Option (Nat × Nat))) with
        | .error e => .error e
        | .ok none => .ok none
        | .ok (some (y, z')) =>
          match v.2 with
          | .error e => .error e
          | .ok d => (g.nodeData z).map fun d' => some ((y, d), z', d') : R (Option ((Nat × T) × Nat × T)))
    · intro g v e
      subst e
      dsimp only
      rcases at_ g y with h | ⟨e, h⟩ <;> rw [h]
      rcases at_ g z with h' | ⟨e, h'⟩ <;> rw [h']
    · exact seen (f := f) z (c := fun w w' => (match (match v.1 with
        | .error e => .error e
        | .ok a =>
          match w with
          | .error e => .error e
          | .ok b => .ok (some (a, b)) : R (Option (Nat × Nat))) with
        | .error e => .error e
        | .ok none => .ok none
        | .ok (some (y, z')) =>
          match v.2 with
          | .error e => .error e
          | .ok d => w'.map fun d' => some ((y, d), z', d') : R (Option ((Nat × T) × Nat × T))))


theorem dftNext (st : Dft.St) : Looks 2 f fun g => g.dftNext st := emit (deNext dftFwd st)
theorem dftNextBack (st : Dft.St) : Looks 3 f fun g => g.dftNextBack st := emit (deNextBack dftBack st)
theorem siblingsNext (st : Siblings.St) : Looks 2 f fun g => g.siblingsNext st := emit (deNext sibFwd st)
theorem siblingsNextBack (st : Siblings.St) : Looks 3 f fun g => g.siblingsNextBack st := emit (deNextBack sibBack st)
theorem shallowNext (A : Arith) (st : Shallow.St) : Looks 2 f fun g => Mach.shallowNext A g st := by
  refine emit (F := fun g => Mach.Shallow.next A g.hier st) ?_
  unfold Mach.Shallow.next
  look (deNext (fun e => shFwd (f := f) A st.maxDepth e) st.next) 0 with (e | ⟨o, n⟩)
theorem shallowNextBack (A : Arith) (st : Shallow.St) : Looks 3 f fun g => Mach.shallowNextBack A g st := by
  refine emit (F := fun g => Mach.Shallow.nextBack A g.hier st) ?_
  unfold Mach.Shallow.nextBack
  look (deNextBack (fun e => shBack (f := f) A st.maxDepth e) st.next) 0 with (e | ⟨o, n⟩)
theorem ancestorsNext (st : Ancestors.St) : Looks 2 f fun g => g.ancestorsNext st := by
  refine emit (F := fun g => Ancestors.next g.hier st) ?_
  unfold Ancestors.next
  rcases st with _ | x
  · exact const _
  · dsimp only
    look (nbr x) 0 with (_ | nb)

theorem iterNew {σ : Type} {mk : Nat → Hier → R σ} (hm : ∀ n, Looks k f fun g => mk n g.hier) (x : Nat) :
    Looks (1 + k) f fun g => g.iterNew x mk := by
  unfold Forest.iterNew
  look (nodeOrPanic x) k with (e | n)
  exact hm n
theorem skipped {ι σ : Type} {adv : Forest T → σ → R (Option ι × σ)} {F : Forest T → R σ} (ha : ∀ s, Looks k f fun g => adv g s)
    (hF : Looks j f F) : Looks (j + k) f fun g => Forest.skipped (adv g) (F g) := by
  unfold Forest.skipped
  look hF k with (e | st)
  look (ha st) 0 with (e | ⟨o, st'⟩)
theorem depthFirstTraverse (x : Nat) : Looks 2 f fun g => g.depthFirstTraverse x :=
  iterNew (f := f) (k := 1) (mk := Dft.withToplevel) (fun n => by
    unfold Dft.withToplevel
    look (hierAlive n) 0 with (_ | _)) x
theorem shallowDepthFirstTraverse (um x : Nat) (m : Option Nat) : Looks 2 f fun g => g.shallowDepthFirstTraverse um x m :=
  iterNew (f := f) (k := 1) (mk := fun n h => Shallow.withToplevelAndMaxDepth um n h m) (fun n => by
    unfold Shallow.withToplevelAndMaxDepth
    look (hierAlive n) 0 with (_ | _)) x
theorem ancestorsOrSelf (x : Nat) : Looks 2 f fun g => g.ancestorsOrSelf x :=
  iterNew (f := f) (k := 1) (mk := Ancestors.withStart) (fun n => by
    unfold Ancestors.withStart
    look (hierAlive n) 0 with (_ | _)) x
theorem ancestors (x : Nat) : Looks 4 f fun g => g.ancestors x := skipped ancestorsNext (ancestorsOrSelf x)
theorem parentNbr (p : Option Nat) : Looks 1 f fun g => p.bind fun x => g.hier.neighbors x := by
  cases p with
  | none => exact const _
  | some x => exact nbr x
theorem rowOf (x : Nat) (l : Row) : Looks 6 f fun g => Req.rowOf g x l := by
  have h1 : Looks 4 f fun g => g.followingSiblingsOrSelf x := iterNew (f := f) (k := 3) (mk := Siblings.withFirstSibling) (fun n => by
    unfold Siblings.withFirstSibling
    look (nbr n) 2 with (_ | nb)
    simp only [expect]
    cases nb.getParent with
    | error e => exact const _
    | ok p =>
      dsimp only
      look (parentNbr p) 1 with (_ | pnb)
      look (lastChild pnb) 0 with (e | o)) x
  have h2 : Looks 3 f fun g => g.precedingSiblingsOrSelf x := iterNew (f := f) (k := 2) (mk := Siblings.withLastSibling) (fun n => by
    unfold Siblings.withLastSibling
    look (nbr n) 1 with (_ | nb)
    simp only [expect]
    cases nb.getParent with
    | error e => exact const _
    | ok p =>
      dsimp only
      look (parentNbr p) 0 with (_ | pnb)) x
  cases l with
  | children =>
    refine mono (j := 3) ?_ (by omega)
    exact iterNew (f := f) (k := 2) (mk := Siblings.withParent) (fun n => by
      unfold Siblings.withParent
      look (nbr n) 1 with (_ | nb)
      simp only [expect]
      exact firstLastChild nb) x
  | following => exact skipped siblingsNext h1
  | followingOrSelf => exact mono h1 (by omega)
  | preceding => exact skipped siblingsNextBack h2
  | precedingOrSelf => exact mono h2 (by omega)

theorem drive {ι σ : Type} {next nextBack : Forest T → σ → R (Option ι × σ)} (h1 : ∀ s, Looks k f fun g => next g s)
    (h2 : ∀ s, Looks k f fun g => nextBack g s) : ∀ (ds : List Dir) (st : σ),
      Looks (k * ds.length) f fun g => drive (next g) (nextBack g) st ds
  | [], _ => const _
  | d :: ds, st => by
    unfold Treena.drive
    have e : k + k * ds.length = k * (d :: ds).length := by simp [Nat.mul_add]; omega
    cases d with
    | front =>
      dsimp only
      refine mono ?_ (Nat.le_of_eq e)
      look (h1 st) (k * ds.length) with (e | ⟨o, st'⟩)
      look (drive h1 h2 ds st') 0 with (e | os)
    | back =>
      dsimp only
      refine mono ?_ (Nat.le_of_eq e)
      look (h2 st) (k * ds.length) with (e | ⟨o, st'⟩)
      look (drive h1 h2 ds st') 0 with (e | os)
theorem pull {ι σ : Type} {next : Forest T → σ → R (Option ι × σ)} (h1 : ∀ s, Looks k f fun g => next g s) : ∀ (n : Nat) (st : σ),
      Looks (k * n) f fun g => pull (next g) n st
  | 0, _ => const _
  | n + 1, st => by
    unfold Treena.pull
    have e : k + k * n = k * (n + 1) := by simp [Nat.mul_add]; omega
    refine mono ?_ (Nat.le_of_eq e)
    look (h1 st) (k * n) with (e | ⟨o, st'⟩)
    look (pull h1 n st') 0 with (e | os)
theorem iterate {ι σ : Type} {next nextBack : Forest T → σ → R (Option ι × σ)} (h1 : ∀ s, Looks k f fun g => next g s)
    (h2 : ∀ s, Looks k f fun g => nextBack g s) {start : Forest T → R σ} (hs : Looks j f start) (ds : List Dir) :
    Looks (j + k * ds.length) f fun g => Req.iterate (next g) (nextBack g) (start g) ds := by
  unfold Req.iterate
  look hs (k * ds.length) with (e | st)
  exact drive h1 h2 ds st
theorem iterate1 {ι σ : Type} {next : Forest T → σ → R (Option ι × σ)} (h1 : ∀ s, Looks k f fun g => next g s)
    {start : Forest T → R σ} (hs : Looks j f start) (n : Nat) :
    Looks (j + k * n) f fun g => Req.iterate1 (next g) (start g) n := by
  unfold Req.iterate1
  look hs (k * n) with (e | st)
  exact pull h1 n st

theorem lookUp (q : Req T) {n : Nat} (hq : q.slots = some n) (b : Build) (cap um : Nat) : Looks n f fun g => (b.exec cap um g q).2 := by
  cases q with
  | alive x =>
    cases hq
    exact ⟨[x], by simp, fun g hg => by
      simp only [Build.exec, Req.exec]; unfold Forest.node Forest.isAlive; rw [(hg x (by simp)).2]⟩
  | data x =>
    cases hq
    exact ⟨[x], by simp, fun g hg => by simp only [Build.exec, Req.exec]; unfold Forest.getData; rw [(hg x (by simp)).2]⟩
  | link x l =>
    have := linkOf (f := f) x l (c := fun r _ => (Ans.ofR Ans.link r : Ans T)) (a := (Ans.absent : Ans T)) (k := 0) fun r => const _
    cases l <;> cases hq <;> exact this
  | ends x => cases hq; exact ends (f := f) x (c := fun r _ => (Ans.ofR Ans.ends r : Ans T)) (a := (Ans.absent : Ans T)) (k := 0) fun r => const _
  | near x l =>
    have := linkOf (f := f) x l (a := (Ans.absent : Ans T)) (k := 1) fun r => ans Ans.near (near r)
    cases l <;> cases hq <;> exact this
  | nearEnds x => cases hq; exact ends (f := f) x (a := (Ans.absent : Ans T)) (k := 2) fun r => ans Ans.nearEnds (nearEnds r)
  | dft x ds =>
    cases hq
    exact ans _ (iterate (fun s => mono (dftNext s) (by omega)) dftNextBack (depthFirstTraverse x) ds)
  | shallow x m ds =>
    cases hq
    exact ans _ (iterate (fun s => mono (shallowNext _ s) (by omega)) (shallowNextBack _) (shallowDepthFirstTraverse um x m) ds)
  | ancestors x self n =>
    cases hq
    refine ans _ (iterate1 ancestorsNext ?_ n)
    cases self with
    | true => exact mono (ancestorsOrSelf x) (by omega)
    | false => exact ancestors x
  | row x l ds =>
    cases hq
    exact ans _ (iterate (fun s => mono (siblingsNext s) (by omega)) siblingsNextBack (rowOf x l) ds)
  | _ => cases hq

theorem made {σ : Type} (c : σ → Iter) {F : Forest T → R σ} (hF : Looks k f F) : Looks k f fun g => Iter.made c (F g) :=
  on (K := fun v _ => Iter.made c v) hF 0 (Nat.le_refl _) (fun g v e => by rw [e]) fun v _ => const _
theorem lift {ι σ : Type} (c : ι → Item) (c' : σ → Iter) {F : Forest T → R (Option ι × σ)} (hF : Looks k f F) :
    Looks k f fun g => Iter.lift c c' (F g) :=
  on (K := fun v _ => Iter.lift c c' v) hF 0 (Nat.le_refl _) (fun g v e => by rw [e]) fun v _ => const _
theorem lift1 {ι : Type} (c : ι → Item) {F : Forest T → R (Option ι)} (hF : Looks k f F) : Looks k f fun g => Iter.lift1 c (F g) :=
  on (K := fun v _ => Iter.lift1 c v) hF 0 (Nat.le_refl _) (fun g v e => by rw [e]) fun v _ => const _
theorem wrap {F : Forest T → R α} (hF : Looks k f F) : Looks k f fun g => some (F g) :=
  on (K := fun v _ => some v) hF 0 (Nat.le_refl _) (fun g v e => by rw [e]) fun v _ => const _

/-- The iterators with a bounded `next`. -/
theorem start (um : Nat) (q : IterReq) (hq : ∀ x, q ≠ .bft x ∧ q ≠ .abft x) : Looks 6 f fun g => Iter.start um g q := by
  cases q with
  | dft x => exact made _ (mono (depthFirstTraverse x) (by omega))
  | shallow x m => exact made _ (mono (shallowDepthFirstTraverse um x m) (by omega))
  | bft x => exact absurd rfl (hq x).1
  | abft x => exact absurd rfl (hq x).2
  | ancestors x self =>
    refine made _ ?_
    cases self with
    | true => exact mono (ancestorsOrSelf x) (by omega)
    | false => exact mono (ancestors x) (by omega)
  | row x l => exact made _ (rowOf x l)
theorem next (b : Build) (um : Nat) {it : Iter} (hi : it.Brief) : Looks 2 f fun g => b.next um g it := by
  cases it with
  | dft st => exact lift _ _ (dftNext st)
  | shallow st => exact lift _ _ (shallowNext _ st)
  | bft st => exact hi.elim
  | abft st => exact hi.elim
  | ancestors st => exact lift _ _ (ancestorsNext st)
  | siblings st => exact lift _ _ (siblingsNext st)
theorem nextBack (b : Build) (um : Nat) (it : Iter) : Looks 3 f fun g => b.nextBack um g it := by
  cases it with
  | dft st => exact wrap (lift _ _ (dftNextBack st))
  | shallow st => exact wrap (lift _ _ (shallowNextBack _ st))
  | bft st => exact const _
  | abft st => exact const _
  | ancestors st => exact const _
  | siblings st => exact wrap (lift _ _ (siblingsNextBack st))
theorem peek (b : Build) (um : Nat) (it : Iter) : Looks 1 f fun g => b.peek um g it := by
  cases it with
  | dft st => exact wrap (lift1 _ (emitPeek _))
  | shallow st => exact wrap (lift1 _ (emitPeek _))
  | bft st => exact const _
  | abft st => exact wrap (lift1 _ (emitPeek _))
  | ancestors st => exact wrap (lift1 _ (emitPeek _))
  | siblings st => exact wrap (lift1 _ (emitPeek _))
theorem peekBack (it : Iter) : Looks 1 f fun g => it.peekBack g := by
  cases it with
  | dft st => exact wrap (lift1 _ (emitPeek _))
  | shallow st => exact wrap (lift1 _ (emitPeek _))
  | bft st => exact const _
  | abft st => exact const _
  | ancestors st => exact const _
  | siblings st => exact wrap (lift1 _ (emitPeek _))
end Looks
end Treena
