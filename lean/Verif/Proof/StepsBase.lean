import Verif.Spec.Steps
import Verif.Proof.Consist
/-! Step counting: forgetting the counter, and combinators for exact counts. -/

set_option autoImplicit false

namespace Treena

namespace Steps
variable {σ τ α β : Type}

theorem Counts.free (m : M σ α) (s : σ) : Counts (Steps.free m) m s 0 := by
  intro n
  show M.zoom _ _ m (s, n) = _
  unfold M.zoom
  dsimp only
  cases m s <;> rfl

theorem Counts.pure (a : α) (s : σ) : Counts (Pure.pure a) (Pure.pure a : M σ α) s 0 := fun _ => rfl
theorem Counts.throw (e : Fail) (s : σ) : Counts (M.throw e) (M.throw e : M σ α) s 0 := fun _ => rfl
theorem Counts.panic (e : String) (s : σ) : Counts (M.panic e) (M.panic e : M σ α) s 0 := fun _ => rfl

theorem Counts.tick {mc : M (σ × Nat) α} {m : M σ α} {s : σ} {k : Nat} (h : Counts mc m s k) :
    Counts (do Steps.tick; mc) m s (k + 1) := by
  intro n
  show mc (s, n + 1) = _
  rw [h]
  congr 1; omega

theorem Counts.bind_ok {mc : M (σ × Nat) α} {m : M σ α} {fc : α → M (σ × Nat) β} {f : α → M σ β} {s s' : σ} {a : α}
    {k k' : Nat} (h : Counts mc m s k) (hr : m s = .ok a s') (h' : Counts (fc a) (f a) s' k') :
    Counts (mc >>= fc) (m >>= f) s (k + k') := by
  intro n
  simp only [M.run_bind, h n, hr, Res.withCount, h' (n + k)]
  rw [Nat.add_assoc]

theorem Counts.bind_fail {mc : M (σ × Nat) α} {m : M σ α} {fc : α → M (σ × Nat) β} {f : α → M σ β} {s s' : σ} {e : Fail}
    {k : Nat} (h : Counts mc m s k) (hr : m s = .fail e s') : Counts (mc >>= fc) (m >>= f) s k := by
  intro n
  simp only [M.run_bind, h n, hr, Res.withCount]

/-- A free step before the rest. -/
theorem Counts.free_bind {m : M σ α} {fc : α → M (σ × Nat) β} {f : α → M σ β} {s s' : σ} {a : α}
    {k : Nat} (hr : m s = .ok a s') (h' : Counts (fc a) (f a) s' k) : Counts (Steps.free m >>= fc) (m >>= f) s k := by
  have := (Counts.free m s).bind_ok hr h'
  rwa [Nat.zero_add] at this

theorem Counts.congr {mc : M (σ × Nat) α} {m m' : M σ α} {s : σ} {k : Nat} (h : Counts mc m s k) (e : m s = m' s) :
    Counts mc m' s k := fun n => by rw [h n, e]

theorem Counts.unique {mc : M (σ × Nat) α} {m : M σ α} {s : σ} {k k' : Nat} (h : Counts mc m s k)
    (h' : Counts mc m s k') : k = k' := by
  have := (h 0).symm.trans (h' 0)
  cases hr : m s <;> simp [hr, Res.withCount] at this <;> omega

theorem Erases.free (m : M σ α) : Erases (Steps.free m) m := fun s => ⟨0, .free m s⟩
theorem Erases.pure (a : α) : Erases (Pure.pure a) (Pure.pure a : M σ α) := fun s => ⟨0, .pure a s⟩
theorem Erases.throw (e : Fail) : Erases (M.throw e) (M.throw e : M σ α) := fun s => ⟨0, .throw e s⟩
theorem Erases.panic (e : String) : Erases (M.panic e) (M.panic e : M σ α) := fun s => ⟨0, .panic e s⟩

theorem Erases.tick {mc : M (σ × Nat) α} {m : M σ α} (h : Erases mc m) : Erases (do Steps.tick; mc) m := fun s => by
  obtain ⟨k, hk⟩ := h s
  exact ⟨_, hk.tick⟩

theorem Erases.bind {mc : M (σ × Nat) α} {m : M σ α} {fc : α → M (σ × Nat) β} {f : α → M σ β} (h : Erases mc m)
    (h' : ∀ a, Erases (fc a) (f a)) : Erases (mc >>= fc) (m >>= f) := fun s => by
  obtain ⟨k, hk⟩ := h s
  cases hr : m s with
  | ok a s' =>
    obtain ⟨k', hk'⟩ := h' a s'
    exact ⟨_, hk.bind_ok hr hk'⟩
  | fail e s' => exact ⟨_, hk.bind_fail hr⟩

theorem Erases.ite {c : Prop} [Decidable c] {mc mc' : M (σ × Nat) α} {m m' : M σ α} (h : Erases mc m) (h' : Erases mc' m') :
    Erases (if c then mc else mc') (if c then m else m') := by
  split
  · exact h
  · exact h'

theorem Erases.congr {mc : M (σ × Nat) α} {m m' : M σ α} (h : Erases mc m) (e : ∀ s, m s = m' s) : Erases mc m' :=
  fun s => by
    obtain ⟨k, hk⟩ := h s
    exact ⟨k, hk.congr (e s)⟩

/-! ### The loops of `hierarchy.rs` -/

theorem read_bind {f : σ → R α} {g : α → σ → R β} (s : σ) :
    (M.read f >>= fun a => M.read (g a)) s = M.read (fun s => match f s with
      | .ok a => g a s
      | .error e => .error e) s := by
  simp only [M.run_bind, M.read]
  cases f s <;> rfl

theorem ancestorsMeet_erases (root : Nat) : ∀ (fuel : Nat) (st : Ancestors.St),
    Erases (ancestorsMeet root fuel st) (M.read fun h => Hier.ancestorsMeet h root fuel st)
  | 0, _ => (Erases.throw _).congr fun _ => rfl
  | fuel + 1, st => by
    unfold ancestorsMeet
    refine Erases.tick ?_
    refine Erases.congr (m := M.read (fun h => Ancestors.next h st) >>= fun p => match p.1 with
      | none => Pure.pure false
      | some ancestor => if ancestor = root then Pure.pure true else M.read fun h => Hier.ancestorsMeet h root fuel p.2)
      (Erases.bind (.free _) fun p => ?_) fun h => ?_
    · obtain ⟨a, st'⟩ := p
      cases a with
      | none => exact .pure _
      | some a => exact Erases.ite (.pure _) (ancestorsMeet_erases root fuel st')
    · simp only [M.run_bind, M.read]
      rw [Hier.ancestorsMeet]
      cases hr : Ancestors.next h st with
      | error e => rfl
      | ok p =>
        obtain ⟨a, st'⟩ := p
        cases a with
        | none => rfl
        | some a => dsimp only; split <;> rfl

theorem rangeContains_erases (last pa : Nat) : ∀ (fuel : Nat) (o : Option Nat),
    Erases (rangeContains last pa fuel o) (M.read fun h => Hier.rangeContains h last pa fuel o)
  | 0, none => (Erases.pure _).congr fun h => by simp [M.read, Hier.rangeContains]
  | fuel + 1, none => (Erases.pure _).congr fun h => by simp [M.read, Hier.rangeContains]
  | 0, some c => (Erases.throw _).congr fun h => rfl
  | fuel + 1, some c => by
    unfold rangeContains
    refine Erases.tick ?_
    refine Erases.congr (m := if c = pa then Pure.pure true else if c = last then Pure.pure false else
      Hier.nbrOf c "[consistency] nodes in the range must be alive" >>= fun nb =>
        M.read (fun _ => nb.nextSibling) >>= fun n => M.read fun h => Hier.rangeContains h last pa fuel n)
      (Erases.ite (.pure _) (Erases.ite (.pure _) (Erases.bind (.free _) fun nb => Erases.bind (.free _) fun n =>
        rangeContains_erases last pa fuel n))) fun h => ?_
    simp only [M.read]
    rw [Hier.rangeContains]
    split
    · rfl
    · split
      · rfl
      · simp only [M.run_bind, Hier.nbrOf, M.read]
        cases expect (h.neighbors c) "[consistency] nodes in the range must be alive" with
        | error e => rfl
        | ok nb =>
          dsimp only
          cases nb.nextSibling <;> rfl

theorem rangeLoop_erases (first last rp inner : Nat) : ∀ (fuel : Nat) (st : Ancestors.St) (pa : Nat),
    Erases (rangeLoop first last rp inner fuel st pa) (M.read fun h => Hier.rangeLoop h first last rp inner fuel st pa)
  | 0, _, _ => (Erases.throw _).congr fun _ => rfl
  | fuel + 1, st, pa => by
    unfold rangeLoop
    refine Erases.tick ?_
    refine Erases.congr (m := M.read (fun h => Ancestors.next h st) >>= fun p => match p.1 with
      | none => Pure.pure false
      | some ancestor => if ancestor ≠ rp then M.read fun h => Hier.rangeLoop h first last rp inner fuel p.2 pa
        else M.read (fun h => Hier.rangeContains h last pa inner (some first)) >>= fun b =>
          if b = true then Pure.pure true else M.read fun h => Hier.rangeLoop h first last rp inner fuel p.2 ancestor)
      (Erases.bind (.free _) fun p => ?_) fun h => ?_
    · obtain ⟨a, st'⟩ := p
      cases a with
      | none => exact .pure _
      | some a =>
        exact Erases.ite (rangeLoop_erases first last rp inner fuel st' pa)
          (Erases.bind (rangeContains_erases last pa inner (some first)) fun b =>
            Erases.ite (.pure _) (rangeLoop_erases first last rp inner fuel st' a))
    · simp only [M.run_bind, M.read]
      rw [Hier.rangeLoop]
      cases hr : Ancestors.next h st with
      | error e => rfl
      | ok p =>
        obtain ⟨a, st'⟩ := p
        cases a with
        | none => rfl
        | some a =>
          dsimp only
          split
          · rfl
          · simp only [M.run_bind, M.read]
            cases Hier.rangeContains h last pa inner (some first) with
            | error e => rfl
            | ok b => cases b <;> rfl

theorem wouldMakeCyclicLinks_erases (first last parent : Nat) :
    Erases (wouldMakeCyclicLinks first last parent) (M.read fun h => Hier.wouldMakeCyclicLinks h first last parent) := by
  unfold wouldMakeCyclicLinks
  refine Erases.congr (m := Hier.nbrOf first "[consistency] nodes in the range must be alive" >>= fun nb =>
      M.read (fun h => .ok h.loopFuel) >>= fun fuel =>
      if first = last then M.read (fun h => Ancestors.withStart parent h) >>= fun st =>
        M.read fun h => Hier.ancestorsMeet h first fuel st
      else M.read (fun _ => nb.getParent) >>= fun rp =>
        M.read (fun _ => expect rp "[consistency] range with multiple toplevel nodes must have a parent") >>= fun rangeParent =>
        if rangeParent = parent then Pure.pure false
        else M.read (fun h => Ancestors.withStart parent h) >>= fun st =>
          M.read (fun h => Ancestors.next h st) >>= fun p =>
          M.read (fun _ => expect p.1 "[validity] start node itself must be iterated") >>= fun pa =>
          M.read fun h => Hier.rangeLoop h first last rangeParent fuel (2 * fuel) p.2 pa)
    ?_ fun h => ?_
  · refine Erases.bind (.free _) fun nb => Erases.bind (.free _) fun fuel => Erases.ite
      (Erases.bind (.free _) fun st => ancestorsMeet_erases first fuel st)
      (Erases.bind (.free _) fun rp => Erases.bind (.free _) fun rangeParent => Erases.ite (.pure _)
        (Erases.bind (.free _) fun st => Erases.bind (.free _) fun p => ?_))
    exact Erases.bind (.free _) fun pa => rangeLoop_erases _ _ _ _ _ _ _
  · simp only [M.run_bind, M.read, Hier.nbrOf]
    unfold Hier.wouldMakeCyclicLinks
    cases expect (h.neighbors first) "[consistency] nodes in the range must be alive" with
    | error e => rfl
    | ok nb =>
      dsimp only
      split
      · simp only [M.run_bind, M.read]
        cases Ancestors.withStart parent h <;> rfl
      · simp only [M.run_bind, M.read]
        cases nb.getParent with
        | error e => rfl
        | ok rp =>
          dsimp only
          cases expect rp "[consistency] range with multiple toplevel nodes must have a parent" with
          | error e => rfl
          | ok rangeParent =>
            dsimp only
            split
            · rfl
            · simp only [M.run_bind, M.read]
              cases Ancestors.withStart parent h with
              | error e => rfl
              | ok st =>
                dsimp only
                cases Ancestors.next h st with
                | error e => rfl
                | ok p =>
                  dsimp only
                  cases expect p.1 "[validity] start node itself must be iterated" <;> rfl

theorem rewriteParents_erases (parent last : Nat) : ∀ (fuel : Nat) (o : Option Nat),
    Erases (rewriteParents parent last fuel o) (Hier.rewriteParents parent last fuel o)
  | 0, none => (Erases.pure _).congr fun h => by simp [Hier.rewriteParents]
  | fuel + 1, none => (Erases.pure _).congr fun h => by simp [Hier.rewriteParents]
  | 0, some c => (Erases.throw _).congr fun h => rfl
  | fuel + 1, some c => by
    unfold rewriteParents Hier.rewriteParents
    exact Erases.tick (Erases.ite (.panic _) (Erases.bind (.free _) fun _ => Erases.ite (.pure _)
      (Erases.bind (.free _) fun nb => Erases.bind (.free _) fun n => rewriteParents_erases parent last fuel n)))

theorem transplant_erases (first last parent : Nat) (prev next : Option Nat) :
    Erases (transplant first last parent prev next) (Hier.transplant first last parent prev next) := by
  unfold transplant Hier.transplant
  exact Erases.bind (wouldMakeCyclicLinks_erases _ _ _) fun b => Erases.ite (.pure _)
    (Erases.bind (.free _) fun _ => Erases.bind (.free _) fun fuel =>
      Erases.bind (rewriteParents_erases _ _ _ _) fun _ => Erases.bind (.free _) fun _ => .pure _)

theorem detach_erases (x : Nat) : Erases (detach x) (Hier.detach x) := Erases.tick (.free _)

theorem detachSingle_erases (x : Nat) : Erases (detachSingle x) (Hier.detachSingle x) := by
  unfold detachSingle Hier.detachSingle
  refine Erases.tick (Erases.bind (.free _) fun nb => Erases.bind (.free _) fun fl => ?_)
  cases fl with
  | none => exact Erases.bind (.free _) fun _ => .pure _
  | some q =>
    obtain ⟨a, b⟩ := q
    refine Erases.bind (.free _) fun par => ?_
    cases par with
    | none => exact Erases.ite (.pure _) (Erases.bind (.free _) fun _ => Erases.bind (.free _) fun _ => .pure _)
    | some p =>
      refine Erases.bind (.free _) fun prev => Erases.bind (.free _) fun next => Erases.bind (.free _) fun _ =>
        Erases.bind (.free _) fun range => Erases.bind (transplant_erases _ _ _ _ _) fun r => ?_
      cases r with
      | error e => exact .panic _
      | ok u =>
        exact Erases.bind (.free _) fun _ => Erases.bind (.free _) fun _ => Erases.bind (.free _) fun _ =>
          Erases.ite (.panic _) (.pure _)

theorem hierInsert_erases (x : Nat) (d : InsertAs) : Erases (hierInsert x d) (Hier.insert x d) := by
  refine Erases.tick ?_
  cases d with
  | firstChildOf p =>
    exact Erases.bind (.free _) fun _ => Erases.bind (.free _) fun _ => Erases.bind (.free _) fun _ =>
      transplant_erases _ _ _ _ _
  | lastChildOf p =>
    exact Erases.bind (.free _) fun _ => Erases.bind (.free _) fun _ => Erases.bind (.free _) fun _ =>
      transplant_erases _ _ _ _ _
  | previousSiblingOf a =>
    exact Erases.ite (.pure _) (Erases.bind (.free _) fun _ => Erases.bind (.free _) fun _ => Erases.bind (.free _) fun _ =>
      Erases.bind (.free _) fun _ => Erases.bind (.free _) fun _ => transplant_erases _ _ _ _ _)
  | nextSiblingOf a =>
    exact Erases.ite (.pure _) (Erases.bind (.free _) fun _ => Erases.bind (.free _) fun _ => Erases.bind (.free _) fun _ =>
      Erases.bind (.free _) fun _ => Erases.bind (.free _) fun _ => transplant_erases _ _ _ _ _)

/-! ### `forest.rs` -/

variable {T S : Type}

theorem Counts.onHier {mc : M (Hier × Nat) α} {m : M Hier α} {f : Forest T} {k : Nat} (h : Counts mc m f.hier k) :
    Counts (Steps.onHier mc) (Forest.onHier m) f k := by
  intro n
  show M.zoom _ _ mc (f, n) = (M.zoom _ _ m f).withCount _
  unfold M.zoom
  dsimp only
  rw [h n]
  cases m f.hier <;> rfl

theorem Counts.onForest {mc : M (Forest T × Nat) α} {m : M (Forest T) α} {f : Forest T} {c : S} {k : Nat} (h : Counts mc m f k) :
    Counts (Steps.onForest mc) (Forest.onForest m) (f, c) k := by
  intro n
  show M.zoom _ _ mc ((f, c), n) = (M.zoom _ _ m (f, c)).withCount _
  unfold M.zoom
  dsimp only
  rw [h n]
  cases m f <;> rfl

theorem Erases.onHier {mc : M (Hier × Nat) α} {m : M Hier α} (h : Erases mc m) :
    Erases (Steps.onHier mc) (Forest.onHier (T := T) m) := fun f => by
  obtain ⟨k, hk⟩ := h f.hier
  exact ⟨k, hk.onHier⟩

theorem Erases.onForest {mc : M (Forest T × Nat) α} {m : M (Forest T) α} (h : Erases mc m) :
    Erases (Steps.onForest mc) (Forest.onForest (S := S) m) := fun f => by
  obtain ⟨k, hk⟩ := h f.1
  exact ⟨k, hk.onForest⟩

theorem insert_erases (x : Nat) (d : InsertAs) : Erases (insert (T := T) x d) (Forest.insert x d) :=
  (hierInsert_erases x d).onHier

theorem createInsertMomo_erases (cap : Nat) (d : T) (dest : InsertAs) :
    Erases (createInsertMomo cap d dest) (Forest.createInsertMomo cap d dest) := by
  unfold createInsertMomo Forest.createInsertMomo
  refine Erases.tick (Erases.bind (.free _) fun v => Erases.ite (.panic _) (Erases.bind (.free _) fun id =>
    Erases.bind (.free _) fun _ => Erases.bind (hierInsert_erases _ _).onHier fun r => ?_))
  cases r with
  | error e => exact .panic _
  | ok u => exact .pure _

theorem removeLoop_erases (close : Nat → M (Forest T × S) Unit) : ∀ (fuel : Nat) (tr : Safe.St),
    Erases (removeLoop close fuel tr) (Forest.removeLoop close fuel tr)
  | 0, _ => .throw _
  | fuel + 1, tr => by
    unfold removeLoop Forest.removeLoop
    refine Erases.tick (Erases.bind (.free _) fun p => ?_)
    obtain ⟨ev, tr'⟩ := p
    cases ev with
    | none => exact .pure _
    | some e =>
      cases e with
      | opn id => exact removeLoop_erases close fuel tr'
      | cls id => exact Erases.bind (.free _) fun _ => removeLoop_erases close fuel tr'

theorem removeWith_erases (close : Nat → M (Forest T × S) Unit) (x : Nat) :
    Erases (removeWith close x) (Forest.removeWith close x) := by
  unfold removeWith Forest.removeWith
  exact Erases.tick (Erases.bind (.free _) fun _ => Erases.ite (.pure _) (Erases.bind (.free _) fun _ =>
    Erases.bind (.free _) fun _ => Erases.bind (.free _) fun _ => removeLoop_erases _ _ _))

theorem cloneNextNode_erases {τ : Type} (cap : Nat) (cl : T → Option T) (src : Forest.CloneSrc T τ) :
    ∀ (fuel cur : Nat) (tr : τ), Erases (cloneNextNode cap cl src fuel cur tr) (Forest.cloneNextNode cap cl src fuel cur tr)
  | 0, _, _ => .throw _
  | fuel + 1, cur, tr => by
    unfold cloneNextNode Forest.cloneNextNode
    refine Erases.tick (Erases.bind (.free _) fun p => ?_)
    obtain ⟨ev, tr'⟩ := p
    cases ev with
    | none => exact .panic _
    | some e =>
      cases e with
      | opn id => exact Erases.bind (.free _) fun d => Erases.bind (createInsertMomo_erases _ _ _) fun _ => .pure _
      | cls id =>
        refine Erases.bind (.free _) fun nb => Erases.bind (.free _) fun o => ?_
        cases o with
        | none => exact .pure _
        | some p => exact cloneNextNode_erases cap cl src fuel p tr'

theorem cloneLoop_erases {τ : Type} (cap : Nat) (cl : T → Option T) (src : Forest.CloneSrc T τ) (hook : Forest.MapHook S)
    (I : Nat) : ∀ (fuel cur : Nat) (tr : τ),
    Erases (cloneLoop cap cl src hook I fuel cur tr) (Forest.cloneLoop cap cl src hook I fuel cur tr)
  | 0, _, _ => .throw _
  | fuel + 1, cur, tr => by
    unfold cloneLoop Forest.cloneLoop
    refine Erases.tick (Erases.bind (cloneNextNode_erases _ _ _ _ _ _).onForest fun p => ?_)
    obtain ⟨o, cur', tr'⟩ := p
    cases o with
    | none => exact .pure _
    | some id => exact Erases.bind (.free _) fun _ => cloneLoop_erases cap cl src hook I fuel cur' tr'

theorem cloneLocal_erases (cap : Nat) (cl : T → Option T) (hook : Forest.MapHook S) (x : Nat) :
    Erases (cloneLocalTreeWithIdMapping cap cl hook x) (Forest.cloneLocalTreeWithIdMapping cap cl hook x) := by
  unfold cloneLocalTreeWithIdMapping Forest.cloneLocalTreeWithIdMapping
  exact Erases.tick (Erases.bind (.free _) fun _ => Erases.bind (.free _) fun _ => Erases.bind (.free _) fun _ =>
    Erases.bind (.free _) fun _ => Erases.bind (.free _) fun _ => Erases.bind (.free _) fun _ =>
    Erases.bind (cloneLoop_erases _ _ _ _ _ _ _ _) fun _ => Erases.ite (.panic _) (.pure _))

theorem cloneForeign_erases (cap : Nat) (cl : T → Option T) (hook : Forest.MapHook S) (fs : Forest T) (x : Nat) :
    Erases (cloneForeignTreeWithIdMapping cap cl hook fs x) (Forest.cloneForeignTreeWithIdMapping cap cl hook fs x) := by
  unfold cloneForeignTreeWithIdMapping Forest.cloneForeignTreeWithIdMapping
  exact Erases.tick (Erases.bind (.free _) fun _ => Erases.bind (.free _) fun _ => Erases.bind (.free _) fun _ =>
    Erases.bind (.free _) fun _ => Erases.bind (.free _) fun _ => Erases.bind (.free _) fun _ =>
    Erases.bind (cloneLoop_erases _ _ _ _ _ _ _ _) fun _ => Erases.ite (.panic _) (Erases.bind (.free _) fun _ =>
      Erases.ite (.panic _) (.pure _)))

end Steps
end Treena
