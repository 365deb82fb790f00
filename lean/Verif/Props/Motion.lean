import Verif.Props.Traverse
import Verif.Props.Consistency
import Verif.Props.Clone
import Verif.Props.Create
import Verif.Props.Remove
import Verif.Props.Detach
import Verif.Props.Builders
import Verif.Props.SampleRun
/-!
# What an operation does to the traversals of the other nodes (C55)
-/
set_option autoImplicit false

namespace Treena
open Shape
variable {T : Type} {f g : Forest T} {s s' : Shape}

/-- The first `n` items of the depth-first traversal of `y`, or its failure. -/
def Forest.dfs (f : Forest T) (y n : Nat) : R (List (Option (Ev Nat))) :=
  match f.depthFirstTraverse y with
  | .error e => .error e
  | .ok st => pull f.dftNext n st

/-- The depth-first traversal of `y` goes the same in both forests, however far it is followed. -/
def SameView (f g : Forest T) (y : Nat) : Prop := ∀ n, f.dfs y n = g.dfs y n

namespace Tree
/-- A list that is empty or begins with a closing event. -/
def Stops {α : Type} : List (Ev α) → Prop
  | [] => True
  | .cls _ :: _ => True
  | .opn _ :: _ => False

mutual
theorem events_inj : ∀ (t t' : Tree Nat) (r r' : List (Ev Nat)), t.events ++ r = t'.events ++ r' → t = t' ∧ r = r'
  | .node a ts, .node a' ts', r, r', h => by
    simp only [events, List.cons_append, List.append_assoc, List.cons.injEq, Ev.opn.injEq] at h
    obtain ⟨rfl, h⟩ := h
    obtain ⟨rfl, h⟩ := eventsL_inj ts ts' (.cls a :: ([] ++ r)) (.cls a :: ([] ++ r')) trivial trivial h
    simp at h
    exact ⟨rfl, h⟩
theorem eventsL_inj : ∀ (ts ts' : List (Tree Nat)) (r r' : List (Ev Nat)), Stops r → Stops r' →
    eventsL ts ++ r = eventsL ts' ++ r' → ts = ts' ∧ r = r'
  | [], [], _, _, _, _, h => ⟨rfl, by simpa [eventsL] using h⟩
  | [], .node a us :: ts', r, r', hr, _, h => by
    simp only [eventsL, events, List.nil_append, List.cons_append] at h
    subst h; exact hr.elim
  | .node a us :: ts, [], r, r', _, hr', h => by
    simp only [eventsL, events, List.nil_append, List.cons_append] at h
    subst h; exact hr'.elim
  | t :: ts, t' :: ts', r, r', hr, hr', h => by
    simp only [eventsL, List.append_assoc] at h
    obtain ⟨rfl, h2⟩ := events_inj t t' _ _ h
    obtain ⟨rfl, rfl⟩ := eventsL_inj ts ts' _ _ hr hr' h2
    exact ⟨rfl, rfl⟩
end

/-- A tree seen along two child functions: they agree on its nodes. -/
theorem isTree_agree {k k' : Nat → List Nat} : ∀ (t : Tree Nat), IsTree k t → IsTree k' t → ∀ y ∈ t.preorder, k y = k' y
  | .node x ts, ⟨h1, h2⟩, ⟨h1', h2'⟩, y, hy => by
    simp only [preorder, List.mem_cons] at hy
    rcases hy with rfl | hy
    · rw [h1, h1']
    · rw [mem_preorderL] at hy
      obtain ⟨u, hu, hy⟩ := hy
      rw [isForest_iff] at h2 h2'
      exact isTree_agree u (h2 u hu) (h2' u hu) y hy
termination_by t => sizeOf t
decreasing_by simp_wf; have := List.sizeOf_lt_of_mem hu; omega

end Tree

theorem pulls_inj {ι : Type} {l l' : List ι} (h : ∀ n, pulls l n = pulls l' n) : l = l' := by
  refine List.ext_getElem? fun i => ?_
  have := congrArg (fun L => L[i]?) (h (i + 1))
  simpa [pulls] using this

theorem Forest.dfs_eq (hm : Models f s) {t : Tree Nat} (ht : Tree.IsTree s.kids t) (hx : s.alive t.root = true) (n : Nat) :
    f.dfs t.root n = .ok (pulls t.events n) := by
  obtain ⟨st, h1, h2⟩ := C19_depth_first hm hx ht rfl
  unfold Forest.dfs
  rw [h1]; exact h2 n

/-- Two traversals are the same exactly if the child lists of all nodes below are. -/
theorem sameView_iff (hm : Models f s) (hm' : Models g s') {y : Nat} (hy : s.alive y = true) (hy' : s'.alive y = true) :
    SameView f g y ↔ ∀ z, AncOrSelf s.parent y z → s'.kids z = s.kids z := by
  obtain ⟨t, ht, rfl⟩ := Tree.exists_tree hm.valid hy
  obtain ⟨t', ht', hr⟩ := Tree.exists_tree hm'.valid hy'
  constructor
  · intro h z hz
    have he : t.events = t'.events := by
      refine pulls_inj fun n => ?_
      have := h n
      rw [Forest.dfs_eq hm ht hy, ← hr, Forest.dfs_eq hm' ht' (by rw [hr]; exact hy')] at this
      simpa using this
    obtain ⟨rfl, _⟩ := Tree.events_inj t t' [] [] (by rw [he])
    exact (Tree.isTree_agree t ht ht' z ((Tree.mem_preorder_iff hm.valid ht z).2 hz)).symm
  · intro h n
    have ht2 : Tree.IsTree s'.kids t :=
      Tree.isTree_congr t (fun z hz => (h z ((Tree.mem_preorder_iff hm.valid ht z).1 hz)).symm) ht
    rw [Forest.dfs_eq hm ht hy, Forest.dfs_eq hm' ht2 hy']

/-- Extending a forest keeps every traversal. -/
theorem grown_sameView (hm : Models f s) (hg : Grown f s g s') {y : Nat} (hy : s.alive y = true) : SameView f g y := by
  have hv := hm.valid
  refine (sameView_iff hm hg.models hy ?_).2 fun z hz => ?_
  · rw [hg.alive y (hv.alive_lt y hy)]; exact hy
  · exact hg.kids z (hv.alive_lt z (hz.alive_down hv hy))

/-- **C55**, `insert`.  After a successful `insert(x, dest)` (with `x` not already there), the depth-first traversal
of `y` is the same as before exactly if `y` is not the old or new parent of `x` or an ancestor of one of them. -/
theorem C55_insert (hm : Models f s) {x P : Nat} {d : InsertAs} (h : Forest.insert x d f = .ok (.ok ()) g)
    (hat : ¬ s.At x d.place) (hpp : s.placeParent d.place = some P) {y : Nat} (hy : s.alive y = true) :
    SameView f g y ↔ (∀ p, s.parent x = some p → ¬ AncOrSelf s.parent y p) ∧ ¬ AncOrSelf s.parent y P := by
  have hv := hm.valid
  obtain ⟨hx, ha, hne, P', hpp', hcyc⟩ := insert_ok_inv hm h
  rw [hpp] at hpp'; cases hpp'
  obtain ⟨f', s', h1, h2, _, _, _, hal, hat', hpar, hkids, _⟩ := C07_insert_moves_partial hm hx ha hne hpp hcyc hat
  rw [h] at h1; cases h1
  have hv' := h2.valid
  rw [sameView_iff hm h2 hy (by rw [hal]; exact hy)]
  have hxk' : ∀ q, x ∈ s'.kids q ↔ q = P := fun q => by
    rw [hv'.mem_kids, hpar]; simp [eq_comm]
  have hxk : ∀ q, x ∈ s.kids q ↔ s.parent x = some q := fun q => hv.mem_kids x q
  have hsame : ∀ q, q ≠ P → s.parent x ≠ some q → s'.kids q = s.kids q := fun q h1 h2 => by
    have := hkids q
    rwa [List.erase_of_not_mem (by rw [hxk']; exact h1), List.erase_of_not_mem (by rw [hxk]; exact h2)] at this
  have hdiff : ∀ q, q = P ∨ s.parent x = some q → s'.kids q ≠ s.kids q := by
    intro q hq e
    have hb : q = P ↔ s.parent x = some q := by rw [← hxk', ← hxk, e]
    have hqP : q = P := hq.elim id hb.2
    subst hqP
    apply hat
    have hnot : ∀ a, (d = .previousSiblingOf a ∨ d = .nextSiblingOf a) → a ≠ x := by
      rintro a (rfl | rfl) rfl
      · exact hne.1 rfl
      · exact hne.2 rfl
    have hsib : ∀ a, a ≠ x → s.parent a = some q → s'.sibs a = s.sibs a := by
      intro a h1 h2
      unfold Shape.sibs
      rw [hpar, if_neg h1, h2]; simp only; rw [e]
    cases d with
    | firstChildOf a => cases hpp; simpa [InsertAs.place, Shape.At, Shape.first, e] using hat'
    | lastChildOf a => cases hpp; simpa [InsertAs.place, Shape.At, Shape.last, e] using hat'
    | previousSiblingOf a =>
      simpa [InsertAs.place, Shape.At, Shape.prev, hsib a (hnot a (.inl rfl)) hpp] using hat'
    | nextSiblingOf a =>
      simpa [InsertAs.place, Shape.At, Shape.next, hsib a (hnot a (.inr rfl)) hpp] using hat'
  constructor
  · intro h
    exact ⟨fun p hp hc => hdiff p (.inr hp) (h p hc), fun hc => hdiff P (.inl rfl) (h P hc)⟩
  · rintro ⟨h1, h2⟩ z hz
    refine hsame z ?_ ?_
    · rintro rfl; exact h2 hz
    · intro hp; exact h1 z hp hz

/-- **C55**, `detach`: exactly the traversals of the former ancestors change. -/
theorem C55_detach (hm : Models f s) {x : Nat} (hx : s.alive x = true) :
    ∃ g, Forest.detach x f = .ok () g ∧ ∀ y, s.alive y = true →
      (SameView f g y ↔ ∀ p, s.parent x = some p → ¬ AncOrSelf s.parent y p) := by
  obtain ⟨g, s', h1, h2, _, _, _, hal, hpar, hkids, _⟩ := C13_detach hm hx
  have hv := hm.valid
  refine ⟨g, h1, fun y hy => ?_⟩
  rw [sameView_iff hm h2 hy (by rw [hal]; exact hy)]
  have hk : ∀ z, s'.kids z = s.kids z ↔ s.parent x ≠ some z := by
    intro z
    rw [hkids, List.filter_eq_self, Ne, ← hv.mem_kids]
    constructor
    · intro h hc; simpa using h x hc
    · intro h a ha; simp only [ne_eq, decide_eq_true_eq]; rintro rfl; exact h ha
  constructor
  · intro h p hp hc; exact (hk p).1 (h p hc) hp
  · intro h z hz; exact (hk z).2 fun hp => h z hp hz

/-- **C55**, `remove`: of the surviving nodes exactly the former ancestors see a change. -/
theorem C55_remove (hm : Models f s) {x : Nat} (hx : s.alive x = true) :
    ∃ g, Forest.remove x f = .ok () g ∧ ∀ y, s.alive y = true → ¬ AncOrSelf s.parent x y →
      (SameView f g y ↔ ∀ p, s.parent x = some p → ¬ AncOrSelf s.parent y p) := by
  obtain ⟨⟨g, s', h1, h2⟩, _⟩ := C15_remove hm hx
  have hv := hm.valid
  refine ⟨g, h1, fun y hy hxy => ?_⟩
  rw [sameView_iff hm h2.models hy ((h2.alive y).2 ⟨hy, hxy⟩)]
  have hk : ∀ z, ¬ AncOrSelf s.parent x z → (s'.kids z = s.kids z ↔ s.parent x ≠ some z) := by
    intro z hz
    rw [h2.kids z hz, List.filter_eq_self, Ne, ← hv.mem_kids]
    constructor
    · intro h hc; simpa using h x hc
    · intro h a ha; simp only [ne_eq, decide_eq_true_eq]; rintro rfl; exact h ha
  constructor
  · intro h p hp hc
    exact (hk p fun hxp => (hv.rooted x).acyclic hp hxp).1 (h p hc) hp
  · intro h z hz
    by_cases hxz : AncOrSelf s.parent x z
    · -- both above `z`, so `y` is above `x`
      exfalso
      have : AncOrSelf s.parent y x := (hxz.linear hz).resolve_left hxy
      cases this with
      | refl => exact hxy .refl
      | step hp hc => exact h _ hp hc
    · exact (hk z hxz).2 fun hp => h z hp hz

/-- **C55**, `detach_single` of a node with a parent: exactly the traversals of the former ancestors change, and
that of the node itself if it had children. -/
theorem C55_detach_single (hm : Models f s) {x p : Nat} (hp : s.parent x = some p) :
    ∃ g, Forest.detachSingle x f = .ok (.ok ()) g ∧ ∀ y, s.alive y = true →
      (SameView f g y ↔ ¬ AncOrSelf s.parent y p ∧ (y = x → s.kids x = [])) := by
  obtain ⟨g, s', A, B, h1, h2, _, _, _, hal, hk, hk', hkx, hko, hpx, _, _⟩ := C14_detach_single_child hm hp
  have hv := hm.valid
  refine ⟨g, h1, fun y hy => ?_⟩
  rw [sameView_iff hm h2 hy (by rw [hal]; exact hy)]
  have hpd : s'.kids p ≠ s.kids p := by
    intro e
    have : x ∈ s'.kids p := by rw [e, hk]; simp
    rw [h2.valid.mem_kids, hpx] at this; cases this
  constructor
  · intro h
    refine ⟨fun hc => hpd (h p hc), ?_⟩
    rintro rfl
    have := h y .refl
    rw [hkx] at this; exact this.symm
  · rintro ⟨h3, h4⟩ z hz
    by_cases hzx : z = x
    · subst hzx
      cases hz with
      | refl => rw [hkx, h4 rfl]
      | step hp' hc => rw [hp] at hp'; cases hp'; exact absurd hc h3
    · refine hko z ?_ hzx
      rintro rfl; exact h3 hz

/-- **C55**, creations: a new root changes no traversal; a node created under `P` changes exactly those of `P` and
its ancestors. -/
theorem C55_create (hm : Models f s) {cap : Nat} (hcap : s.size < cap) (d : T) :
    (∃ g, Forest.createRoot cap d f = .ok s.size g ∧ ∀ y, s.alive y = true → SameView f g y) ∧
    (∀ dest P, s.alive dest.place.anchor = true → s.placeParent dest.place = some P →
      ∃ g, Forest.createInsert cap d dest f = .ok s.size g ∧
        ∀ y, s.alive y = true → (SameView f g y ↔ ¬ AncOrSelf s.parent y P)) := by
  have hv := hm.valid
  have hny : ∀ z, s.alive z = true → z ≠ s.size := fun z hz => Nat.ne_of_lt (hv.alive_lt z hz)
  constructor
  · obtain ⟨g, s', h1, _, h2, _, _, hal, _, hk, _⟩ := (C02_create_root hm cap d).1 hcap
    refine ⟨g, h1, fun y hy => (sameView_iff hm h2 hy ?_).2 fun z hz => ?_⟩
    · rw [hal, if_neg (hny y hy)]; exact hy
    · rw [hk, if_neg (hny z (hz.alive_down hv hy))]
  · intro dest P ha hpp
    obtain ⟨g, s', h1, _, h2, _, _, _, _, hal, hpar, _, hk, _⟩ := C12_create_insert hm hcap d ha hpp
    refine ⟨g, h1, fun y hy => ?_⟩
    rw [sameView_iff hm h2 hy (by rw [hal, if_neg (hny y hy)]; exact hy)]
    constructor
    · intro h hc
      have hm1 : s.size ∈ s'.kids P := by rw [h2.valid.mem_kids, hpar, if_pos rfl]
      rw [h P hc, hv.mem_kids] at hm1
      exact hny _ (hv.parent_alive _ _ hm1).1 rfl
    · intro h z hz
      refine hk z ?_
      rintro rfl; exact h hz

/-- **C55**, copies and builders: whether they return or panic (callback, `T::clone`, IDs exhausted), no traversal of
an existing node changes. -/
theorem C55_copies {S : Type} (hm : Models f s) (cap : Nat) {y : Nat} (hy : s.alive y = true) :
    (∀ (cl : T → Option T) (hook : Forest.MapHook S) (σ : S) x, s.alive x = true →
      SameView f (Forest.cloneLocalTreeWithIdMapping cap cl hook x (f, σ)).state.1 y) ∧
    (∀ (cl : T → Option T) (hook : Forest.MapHook S) (σ : S) fs ss x, Models fs ss → ss.alive x = true →
      SameView f (Forest.cloneForeignTreeWithIdMapping cap cl hook fs x (f, σ)).state.1 y) ∧
    (∀ d calls, SameView f (nestBuild cap d calls f).state y) := by
  have key : ∀ {cl : T → Option T} {hook : Forest.MapHook S} {dat : Nat → Option T} {t : Tree Nat} {σ : S}
      {run : Res (Forest T × S) Nat}, CloneOutcome f s cap cl hook dat t σ run → SameView f run.state.1 y := by
    rintro cl hook dat t σ run ⟨g', σ', s', ⟨_, _, _, h, rfl⟩ | ⟨e, m, rfl, h, _⟩⟩
    · exact grown_sameView hm h.grown hy
    · exact grown_sameView hm h hy
  refine ⟨fun cl hook σ x hx => ?_, fun cl hook σ fs ss x hms hx => ?_, fun d calls => ?_⟩
  · obtain ⟨t, ht, rfl⟩ := Tree.exists_tree hm.valid hx
    exact key (cloneLocal_spec hm ht hx σ)
  · obtain ⟨t, ht, rfl⟩ := Tree.exists_tree hms.valid hx
    exact key (cloneForeign_spec hm hms ht hx σ)
  · rcases nestBuild_spec hm cap d calls with ⟨_, h1⟩ | ⟨_, g, s', h1, h2⟩
    · rw [h1]; intro n; rfl
    · rw [h2]
      cases (NestCall.planL (cap - s.size - 1) calls).2 <;> exact grown_sameView hm h1.grown hy

/-- In the sample, moving 2 (with 4 and 5) below 6: the traversals of 0 and 6 change, those of 1 and 2 do not. -/
example : ∃ g, Forest.insert 2 (.lastChildOf 6) Sample.built = .ok (.ok ()) g ∧ ¬ SameView Sample.built g 0 ∧
    ¬ SameView Sample.built g 6 ∧ SameView Sample.built g 1 ∧ SameView Sample.built g 2 := by
  have hr : ∀ y, AncOrSelf Sample.shape.parent y 6 → y = 6 := by
    intro y h; cases h with
    | refl => rfl
    | step h _ => simp [Sample.shape, Sample.parent] at h
  have hr0 : ∀ y, AncOrSelf Sample.shape.parent y 0 → y = 0 := by
    intro y h; cases h with
    | refl => rfl
    | step h _ => simp [Sample.shape, Sample.parent] at h
  have hat : ¬ Sample.shape.At 2 (InsertAs.lastChildOf 6).place := by
    simp [InsertAs.place, Shape.At, Shape.last, Sample.shape, Sample.kids]
  obtain ⟨g, _, h, _⟩ := C07_insert_moves_partial Sample.models (x := 2) (P := 6) (d := .lastChildOf 6) rfl rfl (by simp)
    rfl (fun h => by cases hr _ h) hat
  have hp : Sample.shape.parent 2 = some 0 := rfl
  refine ⟨g, h, ?_, ?_, ?_, ?_⟩
  · rw [C55_insert Sample.models h hat rfl rfl]; exact fun hc => hc.1 0 hp .refl
  · rw [C55_insert Sample.models h hat rfl rfl]; exact fun hc => hc.2 .refl
  · rw [C55_insert Sample.models h hat rfl rfl, hp]
    refine ⟨fun p e hc => ?_, fun hc => ?_⟩
    · cases e; cases hr0 _ hc
    · cases hr _ hc
  · rw [C55_insert Sample.models h hat rfl rfl, hp]
    refine ⟨fun p e hc => ?_, fun hc => ?_⟩
    · cases e; cases hr0 _ hc
    · cases hr _ hc

/-! ### The hypotheses can be met

Each example applies the theorem named in its comment to a concrete forest. -/

section
/-- `C55_copies`: node 5. -/
example := C55_copies (S := Unit) Sample.models 100 (y := 5) rfl

/-- `C55_create`: the sample forest. -/
example := C55_create Sample.models (cap := 100) (by decide) 42

/-- `C55_detach`: node 2. -/
example := C55_detach Sample.models (x := 2) rfl

/-- `C55_detach_single`: node 2. -/
example := C55_detach_single Sample.models (x := 2) (p := 0) rfl

/-- `C55_remove`: node 2. -/
example := C55_remove Sample.models (x := 2) rfl

end

end Treena
