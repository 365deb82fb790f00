import Verif.Proof.Plain
/-!
# The naive implementation simulates the modelled code: read-only calls
-/
set_option autoImplicit false

namespace Treena
variable {T : Type}

namespace Plain
open Wood
variable {r : Plain T} {f : Forest T} {s : Shape}

theorem Abs.isAlive (h : Abs r f s) (x : Nat) : f.isAlive x = r.alive x := by
  rw [h.alive, h.models.isAlive]

theorem Abs.getData (h : Abs r f s) (x : Nat) : f.getData x = (findL x r.trees).map fun t => t.root.2 := by
  rcases h.find x with ⟨hx, e⟩ | ⟨hx, u, e, hu, ht⟩
  · rw [e]
    have := h.models.dataAlive x
    rw [hx] at this
    simpa using this
  · rw [e]
    have := h.stored.find e u.root (Tree.root_mem_preorder u)
    rw [show u.root.1 = x from hu] at this
    exact this

theorem Abs.linkOf (h : Abs r f s) {x : Nat} (hx : s.alive x = true) (k : Link) :
    Req.linkOf f x k = .ok (r.link x k) := by
  have hd := h.models.describes
  cases k
  · rw [Req.linkOf, hd.parent x hx, Plain.link, h.parent]
  · rw [Req.linkOf, hd.next x hx, Plain.link, h.sibs]; rfl
  · rw [Req.linkOf, hd.prev x hx, Plain.link, h.sibs]; rfl
  · rw [Req.linkOf, hd.first x hx, Plain.link, h.kids]
  · rw [Req.linkOf, hd.last x hx, Plain.link, h.kids]

theorem Abs.path (h : Abs r f s) {x : Nat} {L : List Nat} (hL : UpPath s.parent x L) :
    ∀ n, L.length ≤ n → r.path n x = L := by
  induction hL with
  | root hp =>
    intro n hn
    cases n with
    | zero => simp at hn
    | succ n => simp [Plain.path, h.parent, hp]
  | step hp _ ih =>
    intro n hn
    cases n with
    | zero => simp at hn
    | succ n =>
      rw [Plain.path, h.parent, hp]
      simp only
      rw [ih n (by simpa using hn)]

theorem iterNew_dead (h : Models f s) {x : Nat} (hx : s.alive x = false) {σ : Type} (mk : Nat → Hier → R σ) :
    ∃ msg, f.iterNew x mk = .error (.panic msg) := by
  have : f.node x = none := by rw [h.describes.node]; simp [hx]
  exact ⟨_, by simp [Forest.iterNew, Forest.nodeOrPanic, this]; rfl⟩

theorem skipped_error {ι σ : Type} (adv : σ → R (Option ι × σ)) {st : R σ} {msg : String} (h : st = .error (.panic msg)) :
    Forest.skipped adv st = .error (.panic msg) := by
  rw [h]; rfl

theorem iterate_of {ι σ : Type} {next nextBack : σ → R (Option ι × σ)} {start : R σ} {L : List ι}
    (h : IteratesOver next nextBack start L) (ds : List Dir) :
    Req.iterate next nextBack start ds = .ok (dequeRun L ds) := by
  obtain ⟨st, h1, _, h3⟩ := h
  rw [Req.iterate.eq_def, h1]
  exact h3 ds

theorem at_alive {x : Nat} {u : Tree (Nat × T)} (e : findL x r.trees = some u) (k : Tree (Nat × T) → Plain T × Ans T) :
    r.at_ x k = k u := by rw [at_, e]

theorem at_dead {x : Nat} (e : findL x r.trees = none) (k : Tree (Nat × T) → Plain T × Ans T) :
    r.at_ x k = (r, .panicked) := by rw [at_, e]

theorem Abs.row (h : Abs r f s) {x : Nat} (hx : s.alive x = true) (k : Row) :
    IteratesOver f.siblingsNext f.siblingsNextBack (Req.rowOf f x k) (r.row x k) := by
  have hv := h.models.valid
  obtain ⟨h0, A, B, h1, h2, h3, h4, h5, h6⟩ := C25_siblings h.models hx
  have hAB : before (s.sibs x) x = A ∧ after (s.sibs x) x = B := by
    cases hp : s.parent x with
    | none =>
      obtain ⟨rfl, rfl⟩ := h2 hp
      simp [Shape.sibs, hp]
    | some p =>
      have hk := h1 p hp
      have hnd := hv.kids_nodup p
      have hA : x ∉ A := by
        rw [hk, List.nodup_append] at hnd
        intro hm
        exact hnd.2.2 x hm x (by simp) rfl
      simp only [Shape.sibs, hp, hk]
      exact ⟨before_eq hA, after_eq hA⟩
  cases k
  · rw [Plain.row, h.kids]; exact h0
  · rw [Plain.row, h.sibs, hAB.2]; exact h3
  · rw [Plain.row, h.sibs, hAB.2]; exact h4
  · rw [Plain.row, h.sibs, hAB.1]; exact h5
  · rw [Plain.row, h.sibs, hAB.1]; exact h6

theorem rowOf_dead (h : Models f s) {x : Nat} (hx : s.alive x = false) (k : Row) :
    ∃ msg, Req.rowOf f x k = .error (.panic msg) := by
  cases k
  · exact iterNew_dead h hx _
  · obtain ⟨m, e⟩ := iterNew_dead h hx Siblings.withFirstSibling
    exact ⟨m, skipped_error _ e⟩
  · exact iterNew_dead h hx _
  · obtain ⟨m, e⟩ := iterNew_dead h hx Siblings.withLastSibling
    exact ⟨m, skipped_error _ e⟩
  · exact iterNew_dead h hx _

theorem Abs.show_ (h : Abs r f s) {y : Nat} (hy : s.alive y = true) :
    ∃ d, f.nodeData y = .ok d ∧ r.show_ y = some (y, d) := by
  obtain ⟨d, h1, h2⟩ := h.models.describes.nodeData y hy
  refine ⟨d, h1, ?_⟩
  rcases h.find y with ⟨hx, e⟩ | ⟨hx, u, e, hu, ht⟩
  · rw [hx] at hy; cases hy
  · rw [h.getData, e] at h2
    unfold Plain.show_
    rw [e]
    simp only [Option.map_some, Option.some.injEq] at h2 ⊢
    rw [← h2, ← hu]; rfl

theorem Abs.viaNode (h : Abs r f s) {x : Nat} (hx : s.alive x = true) (k : Link) :
    f.viaNode (Req.linkOf f x k) = .ok (r.link x k) ∧ ∀ y, r.link x k = some y → s.alive y = true := by
  have hd := h.models.describes
  have hl := h.linkOf hx k
  have key : f.viaNode (Req.linkOf f x k) = Req.linkOf f x k := by
    cases k
    · exact (hd.nodeParent x hx).trans (hd.parent x hx).symm
    · exact (hd.nodeNext x hx).trans (hd.next x hx).symm
    · exact (hd.nodePrev x hx).trans (hd.prev x hx).symm
    · exact (hd.nodeFirst x hx).trans (hd.first x hx).symm
    · exact (hd.nodeLast x hx).trans (hd.last x hx).symm
  rw [key, hl]
  refine ⟨rfl, fun y hy => ?_⟩
  rw [hl, hy] at key
  rw [← h.models.isAlive]
  simp only [Forest.viaNode, Forest.nodeAt, Forest.node] at key
  cases hf : f.isAlive y with
  | true => rfl
  | false => rw [hf] at key; simp [expect] at key

theorem Abs.nearOf (h : Abs r f s) {x : Nat} (hx : s.alive x = true) (k : Link) :
    Req.nearOf f x k = .ok ((r.link x k).bind r.show_) := by
  obtain ⟨h1, h2⟩ := h.viaNode hx k
  rw [Req.nearOf, h1]
  cases e : r.link x k with
  | none => rfl
  | some y =>
    obtain ⟨d, h3, h4⟩ := h.show_ (h2 y e)
    simp [h3, h4, Except.map]

theorem Abs.nearEndsOf (h : Abs r f s) {x : Nat} (hx : s.alive x = true) :
    Req.nearEndsOf f x = .ok (((r.kids x).head?.bind r.show_).bind fun a => ((r.kids x).getLast?.bind r.show_).map fun b => (a, b)) := by
  have hd := h.models.describes
  rw [Req.nearEndsOf, hd.nodeFirstLast x hx, hd.firstLast x hx, ← h.kids]
  cases e1 : (r.kids x).head? with
  | none => rfl
  | some y =>
    cases e2 : (r.kids x).getLast? with
    | none =>
      rw [List.getLast?_eq_none_iff] at e2
      rw [e2] at e1; cases e1
    | some z =>
      obtain ⟨d, h3, h4⟩ := h.show_ ((h.viaNode hx .firstChild).2 y e1)
      obtain ⟨d', h5, h6⟩ := h.show_ ((h.viaNode hx .lastChild).2 z e2)
      simp [h3, h4, h5, h6, Except.map]

/-- The calls that only read. -/
def _root_.Treena.Req.reads : Req T → Bool
  | .alive _ | .data _ | .link _ _ | .ends _ | .near _ _ | .nearEnds _ | .dft _ _ | .shallow _ _ _ | .bft _ _ | .abft _ _
  | .ancestors _ _ _ | .row _ _ _ => true
  | _ => false

/-- Read-only calls: same answers, no change. -/
theorem Abs.read (h : Abs r f s) (cap um : Nat) (q : Req T) (hq : q.reads = true) :
    ∃ a, r.exec cap um q = some (r, a) ∧ q.exec cap um f = (f, a) := by
  have hm := h.models
  cases q with
  | alive x =>
    refine ⟨_, rfl, ?_⟩
    rw [Req.exec, ← h.isAlive, Forest.node]
    cases f.isAlive x <;> rfl
  | near x k =>
    refine ⟨_, rfl, ?_⟩
    rw [Req.exec, h.isAlive]
    cases hx : r.alive x with
    | false => rfl
    | true =>
      rw [h.alive] at hx
      rw [h.nearOf hx]; rfl
  | nearEnds x =>
    refine ⟨_, rfl, ?_⟩
    rw [Req.exec, h.isAlive]
    cases hx : r.alive x with
    | false => rfl
    | true =>
      rw [h.alive] at hx
      rw [h.nearEndsOf hx]; rfl
  | data x => exact ⟨_, rfl, by rw [Req.exec, h.getData]⟩
  | link x k =>
    refine ⟨_, rfl, ?_⟩
    rw [Req.exec, h.isAlive]
    cases hx : r.alive x with
    | false => rfl
    | true =>
      rw [h.alive] at hx
      rw [h.linkOf hx]; rfl
  | ends x =>
    refine ⟨_, rfl, ?_⟩
    rw [Req.exec, h.isAlive]
    cases hx : r.alive x with
    | false => rfl
    | true =>
      rw [h.alive] at hx
      rw [hm.describes.firstLast x hx, h.kids]; rfl
  | dft x ds =>
    simp only [Plain.exec, Req.exec]
    rcases h.find x with ⟨hx, e⟩ | ⟨hx, u, e, hu, ht⟩
    · rw [at_dead e]
      obtain ⟨msg, h1⟩ := C19_dead hm hx
      exact ⟨_, rfl, by rw [Req.iterate.eq_def, h1]; rfl⟩
    · rw [at_alive e]
      obtain ⟨st, h1, h2⟩ := C20_dft_deque hm hx ht (by rw [root_sk, hu])
      exact ⟨_, rfl, by rw [Req.iterate.eq_def, h1]; simp only; rw [h2]; rfl⟩
  | shallow x max ds =>
    simp only [Plain.exec, Req.exec]
    rcases h.find x with ⟨hx, e⟩ | ⟨hx, u, e, hu, ht⟩
    · rw [at_dead e]
      obtain ⟨msg, h1⟩ := iterNew_dead hm hx fun n h => Shallow.withToplevelAndMaxDepth um n h max
      exact ⟨_, rfl, by rw [Req.iterate.eq_def, Forest.shallowDepthFirstTraverse, h1]; rfl⟩
    · rw [at_alive e]
      subst hu
      rw [← root_sk] at hx ⊢
      refine ⟨_, rfl, ?_⟩
      rw [Req.iterate.eq_def, shallow_start um hm hx]
      simp only
      rw [shallow_drive hm ht hx _]
      rfl
  | bft x n =>
    simp only [Plain.exec, Req.exec]
    rcases h.find x with ⟨hx, e⟩ | ⟨hx, u, e, hu, ht⟩
    · rw [at_dead e]
      obtain ⟨msg, h1⟩ := iterNew_dead hm hx (Bft.withToplevel um)
      exact ⟨_, rfl, by rw [Req.iterate1.eq_def, Forest.breadthFirstTraverse, h1]; rfl⟩
    · rw [at_alive e]
      obtain ⟨st, h1, h2⟩ := C22_breadth_first um hm hx ht (by rw [root_sk, hu])
      exact ⟨_, rfl, by rw [Req.iterate1.eq_def, h1]; simp only; rw [h2]; rfl⟩
  | abft x n =>
    simp only [Plain.exec, Req.exec]
    rcases h.find x with ⟨hx, e⟩ | ⟨hx, u, e, hu, ht⟩
    · rw [at_dead e]
      obtain ⟨msg, h1⟩ := iterNew_dead hm hx ABft.withToplevel
      exact ⟨_, rfl, by rw [Req.iterate1.eq_def, Forest.allocatingBreadthFirstTraverse, h1]; rfl⟩
    · rw [at_alive e]
      obtain ⟨st, h1, h2, _⟩ := C23_allocating hm hx ht (by rw [root_sk, hu])
      exact ⟨_, rfl, by rw [Req.iterate1.eq_def, h1]; simp only; rw [h2]; rfl⟩
  | ancestors x self n =>
    simp only [Plain.exec, Req.exec]
    rcases h.find x with ⟨hx, e⟩ | ⟨hx, u, e, hu, ht⟩
    · rw [at_dead e]
      obtain ⟨msg, h1⟩ := iterNew_dead hm hx Ancestors.withStart
      refine ⟨_, rfl, ?_⟩
      cases self
      · rw [Req.iterate1.eq_def, if_neg (by simp), Forest.ancestors, Forest.ancestorsOrSelf, skipped_error _ h1]; rfl
      · rw [Req.iterate1.eq_def, if_pos rfl, Forest.ancestorsOrSelf, h1]; rfl
    · rw [at_alive e]
      obtain ⟨L, hL, ⟨st, h1, h2⟩, ⟨st', h3, h4⟩⟩ := C24_ancestors hm hx
      have hl := hm.valid.path_length hL hx
      rw [h.path hL (r.issued + 1) (by rw [← h.size]; omega)]
      refine ⟨_, rfl, ?_⟩
      cases self
      · rw [Req.iterate1.eq_def, if_neg (by simp), h3]; simp only; rw [h4]; rfl
      · rw [Req.iterate1.eq_def, if_pos rfl, h1]; simp only; rw [h2]; rfl
  | row x k ds =>
    simp only [Plain.exec, Req.exec]
    rcases h.find x with ⟨hx, e⟩ | ⟨hx, u, e, hu, ht⟩
    · rw [at_dead e]
      obtain ⟨msg, h1⟩ := rowOf_dead hm hx k
      exact ⟨_, rfl, by rw [Req.iterate.eq_def, h1]; rfl⟩
    · rw [at_alive e]
      exact ⟨_, rfl, by rw [iterate_of (h.row hx k)]; rfl⟩
  | _ => cases hq

end Plain
end Treena
