import Verif.Proof.Consist
import Verif.Spec.Complete
import Verif.Proof.Remove
import Verif.Props.Sample
/-! Every consistent forest can be made. -/
set_option autoImplicit false

namespace Treena
open Shape

variable {T : Type} {f g : Forest T} {s s' : Shape} {cap : Nat}

/-- A history leading from `f` to `f'` in which no call is harmful and all calls succeed. -/
structure Leads (cap : Nat) (f : Forest T) (ops : List (Op T)) (f' : Forest T) : Prop where
  run : Op.run cap f ops = f'
  careful : Careful cap f ops
  smooth : Smooth cap f ops

namespace Leads

theorem nil (f : Forest T) : Leads cap f [] f := ⟨rfl, trivial, trivial⟩

theorem cons {op : Op T} {ops : List (Op T)} {f1 f2 : Forest T} (h1 : ¬ op.Harmful f) (h2 : op.succeeds cap f = true)
    (h3 : op.step cap f = f1) (h : Leads cap f1 ops f2) : Leads cap f (op :: ops) f2 := by
  subst h3
  exact ⟨h.run, ⟨h1, h.careful⟩, ⟨h2, h.smooth⟩⟩

theorem append {ops ops' : List (Op T)} {f1 f2 : Forest T} : ∀ {f : Forest T}, Leads cap f ops f1 → Leads cap f1 ops' f2 →
    Leads cap f (ops ++ ops') f2 := by
  induction ops with
  | nil => intro f h h'; have := h.run; simp only [Op.run, List.foldl_nil] at this; subst this; exact h'
  | cons op ops ih =>
    intro f h h'
    exact cons h.careful.1 h.smooth.1 rfl (ih ⟨h.run, h.careful.2, h.smooth.2⟩ h')

end Leads

namespace Shape

/-- A well-formed shape is determined by its child lists. -/
theorem Valid.ext_kids (hv : s.Valid) (hv' : s'.Valid) (h1 : s.size = s'.size) (h2 : s.alive = s'.alive)
    (h3 : s.kids = s'.kids) : s = s' := by
  have h4 : s.parent = s'.parent := by
    funext x
    apply Option.ext
    intro p
    rw [← hv.mem_kids, ← hv'.mem_kids, h3]
  obtain ⟨a, b, c, d⟩ := s
  obtain ⟨a', b', c', d'⟩ := s'
  simp only at h1 h2 h3 h4
  subst h1 h2 h3 h4
  rfl

theorem Valid.kids_dead (hv : s.Valid) {p : Nat} (h : s.alive p = false) : s.kids p = [] := by
  cases hk : s.kids p with
  | nil => rfl
  | cons a l =>
    have := (hv.parent_alive a p ((hv.mem_kids a p).1 (by rw [hk]; simp))).2
    rw [h] at this; cases this

end Shape

/-! ### Taking everything apart -/

theorem leads_detach (cap : Nat) : ∀ (xs : List Nat) {f : Forest T} {s : Shape}, Models f s → (∀ x ∈ xs, s.alive x = true) →
    ∃ f' s', Leads cap f (xs.map Op.detach) f' ∧ Models f' s' ∧ f'.data = f.data ∧ s'.size = s.size ∧
      s'.alive = s.alive ∧ (∀ x, s.parent x = none → s'.parent x = none) ∧ ∀ x ∈ xs, s'.parent x = none
  | [], f, s, hm, _ => ⟨f, s, .nil f, hm, rfl, rfl, rfl, fun _ h => h, by simp⟩
  | x :: xs, f, s, hm, hx => by
    obtain ⟨f1, h1, h2, h3⟩ := forest_detach_models hm (hx x (by simp))
    obtain ⟨f', s', a1, a2, a3, a4, a5, a6, a7⟩ := leads_detach cap xs h2 (fun y hy => hx y (by simp [hy]))
    refine ⟨f', s', .cons (f1 := f1) (fun h => h) ?_ ?_ a1, a2, a3.trans h3, a4, a5, ?_, ?_⟩
    · simp [Op.succeeds, h1, Op.succeeds.plain]
    · simp [Op.step, h1, Res.state]
    · intro y hy
      refine a6 y ?_
      simp only [Shape.detach, upd]; split <;> [rfl; exact hy]
    · intro y hy
      simp only [List.mem_cons] at hy
      rcases hy with rfl | hy
      · exact a6 y (by simp [Shape.detach, upd])
      · exact a7 y hy

theorem leads_apart (cap : Nat) (hm : Models f s) :
    ∃ ops f' s', (∀ op ∈ ops, ∃ x, op = Op.detach x) ∧ ops.length ≤ s.size ∧ Leads cap f ops f' ∧ Models f' s' ∧
      f'.data = f.data ∧ s'.size = s.size ∧ s'.alive = s.alive ∧ s'.kids = fun _ => [] := by
  obtain ⟨f', s', a1, a2, a3, a4, a5, a6, a7⟩ := leads_detach cap ((List.range s.size).filter s.alive) hm
    (fun x hx => (List.mem_filter.1 hx).2)
  refine ⟨_, f', s', ?_, ?_, a1, a2, a3, a4, a5, ?_⟩
  · intro op h; rw [List.mem_map] at h; obtain ⟨x, _, rfl⟩ := h; exact ⟨x, rfl⟩
  · rw [List.length_map]
    exact Nat.le_trans (List.length_filter_le ..) (by simp)
  · funext p
    cases hk : s'.kids p with
    | nil => rfl
    | cons c l =>
      have hp := (a2.valid.mem_kids c p).1 (by rw [hk]; simp)
      have hc := (a2.valid.parent_alive c p hp).1
      rw [a5] at hc
      rw [a7 c (List.mem_filter.2 ⟨List.mem_range.2 (hm.valid.alive_lt c hc), hc⟩)] at hp
      cases hp

/-! ### Putting it together -/

theorem leads_attach (cap : Nat) (hv' : s'.Valid) (hm : Models f s) (hsz : s.size = s'.size)
    (hal : s.alive = s'.alive) {p c : Nat} {done rest : List Nat} (hk : s'.kids p = done ++ c :: rest)
    (hsub : ∀ q, ∀ y ∈ s.kids q, y ∈ s'.kids q) (hd : s.kids p = done) :
    ∃ f1 s1, Leads cap f [.insert c (.lastChildOf p)] f1 ∧ Models f1 s1 ∧ f1.data = f.data ∧ s1.size = s'.size ∧
      s1.alive = s'.alive ∧ s1.kids = upd s.kids p (done ++ [c]) := by
  have hv := hm.valid
  have hcm : c ∈ s'.kids p := by rw [hk]; simp
  have hpar := (hv'.mem_kids c p).1 hcm
  obtain ⟨hc, hp⟩ := hv'.parent_alive c p hpar
  have hnot : ∀ q, c ∉ s.kids q := by
    intro q hq
    have h1 := (hv'.mem_kids c q).1 (hsub q c hq)
    rw [hpar] at h1; cases h1
    rw [hd] at hq
    have := hv'.kids_nodup p
    rw [hk] at this
    exact (List.nodup_append.1 this).2.2 c hq c (by simp) rfl
  have hparent : ∀ x q, s.parent x = some q → s'.parent x = some q := fun x q h =>
    (hv'.mem_kids x q).1 (hsub q x ((hv.mem_kids x q).2 h))
  have hanc : ∀ a x, AncOrSelf s.parent a x → AncOrSelf s'.parent a x := by
    intro a x h
    induction h with
    | refl => exact .refl
    | step h1 _ ih => exact .step (hparent _ _ h1) ih
  have hat : ¬ s.At c (.lastChildOf p) := by
    intro h
    exact hnot p (List.mem_of_getLast? h)
  obtain ⟨f1, h1, h2, h3⟩ := forest_insert_models hm (x := c) (P := p) (d := .lastChildOf p) (by rw [hal]; exact hc)
    (by rw [hal]; exact hp) (by intro a h; rcases h with h | h <;> cases h) rfl
    (fun h => (hv'.rooted c).acyclic hpar (hanc _ _ h)) hat
  refine ⟨f1, _, .cons (f1 := f1) ?_ ?_ ?_ (.nil f1), h2, h3, hsz, hal, ?_⟩
  · intro h
    have h : InPlace f c (.lastChildOf p) := h
    exact hat ((inPlace_iff hm).1 h).1
  · simp [Op.succeeds, h1, Op.succeeds.noErr]
  · simp [Op.step, h1, Res.state]
  · funext q
    have he : ∀ r, (s.kids r).erase c = s.kids r := fun r => List.erase_of_not_mem (hnot r)
    simp only [Shape.move, InsertAs.place, Shape.placeParent, Shape.attach, Shape.detach, Place.put, upd, he, hd]

theorem leads_kids (cap : Nat) (hv' : s'.Valid) {p : Nat} : ∀ (rest done : List Nat) {f : Forest T} {s : Shape},
    Models f s → s.size = s'.size → s.alive = s'.alive → s'.kids p = done ++ rest →
    (∀ q, ∀ y ∈ s.kids q, y ∈ s'.kids q) → s.kids p = done →
    ∃ f1 s1, Leads cap f (rest.map fun c => Op.insert c (.lastChildOf p)) f1 ∧ Models f1 s1 ∧ f1.data = f.data ∧
      s1.size = s'.size ∧ s1.alive = s'.alive ∧ s1.kids = upd s.kids p (s'.kids p)
  | [], done, f, s, hm, h1, h2, h3, _, h5 => by
    refine ⟨f, s, .nil f, hm, rfl, h1, h2, ?_⟩
    funext q
    simp only [upd]
    split
    · rename_i h; subst h; rw [h5, h3]; simp
    · rfl
  | c :: rest, done, f, s, hm, h1, h2, h3, h4, h5 => by
    obtain ⟨f1, s1, a1, a2, a3, a4, a5, a6⟩ := leads_attach cap hv' hm h1 h2 h3 h4 h5
    have hsub : ∀ q, ∀ y ∈ s1.kids q, y ∈ s'.kids q := by
      intro q y hy
      rw [a6] at hy
      simp only [upd] at hy
      split at hy
      · rename_i h; subst h; rw [h3]; simp at hy ⊢; rcases hy with h | h <;> simp [h]
      · exact h4 q y hy
    obtain ⟨f2, s2, b1, b2, b3, b4, b5, b6⟩ := leads_kids cap hv' rest (done ++ [c]) a2 a4 a5 (by rw [h3]; simp) hsub
      (by rw [a6]; simp [upd])
    refine ⟨f2, s2, ?_, b2, b3.trans a3, b4, b5, ?_⟩
    · exact (a1.append b1 : Leads cap f ([_] ++ _) f2)
    · rw [b6, a6]; funext q; simp only [upd]; split <;> rfl

theorem leads_build (cap : Nat) (hv' : s'.Valid) : ∀ (ps : List Nat) {f : Forest T} {s : Shape}, ps.Nodup →
    Models f s → s.size = s'.size → s.alive = s'.alive → (∀ q, s.kids q = if q ∈ ps then [] else s'.kids q) →
    ∃ f1, Leads cap f (ps.flatMap fun p => (s'.kids p).map fun c => Op.insert c (.lastChildOf p)) f1 ∧ Models f1 s' ∧
      f1.data = f.data
  | [], f, s, _, hm, h1, h2, h3 => by
    have : s = s' := hm.valid.ext_kids hv' h1 h2 (by funext q; rw [h3]; simp)
    subst this
    exact ⟨f, .nil f, hm, rfl⟩
  | p :: ps, f, s, hnd, hm, h1, h2, h3 => by
    have hsub : ∀ q, ∀ y ∈ s.kids q, y ∈ s'.kids q := by
      intro q y hy; rw [h3] at hy; split at hy
      · simp at hy
      · exact hy
    obtain ⟨f1, s1, a1, a2, a3, a4, a5, a6⟩ := leads_kids cap hv' (p := p) (s'.kids p) [] hm h1 h2 rfl hsub
      (by rw [h3]; simp)
    obtain ⟨f2, b1, b2, b3⟩ := leads_build cap hv' ps (List.nodup_cons.1 hnd).2 a2 a4 a5 (by
      intro q
      rw [a6]; simp only [upd]
      by_cases hq : q = p
      · subst hq; rw [if_pos rfl, if_neg (List.nodup_cons.1 hnd).1]
      · rw [if_neg hq, h3]; simp [hq])
    exact ⟨f2, by rw [List.flatMap_cons]; exact a1.append b1, b2, b3.trans a3⟩

theorem kids_sum_le (hv' : s'.Valid) :
    ((List.range s'.size).flatMap fun p => (s'.kids p).map fun c => (Op.insert c (.lastChildOf p) : Op T)).length ≤ s'.size := by
  have h1 : ((List.range s'.size).flatMap fun p => (s'.kids p).map fun c => (Op.insert c (.lastChildOf p) : Op T)).length =
      ((List.range s'.size).flatMap s'.kids).length := by
    simp [List.length_flatMap]
  rw [h1]
  refine nodup_length_le ?_ fun x hx => ?_
  · rw [List.nodup_flatMap]
    refine ⟨fun p _ => hv'.kids_nodup p, ?_⟩
    refine List.Pairwise.imp ?_ (List.nodup_range (n := s'.size))
    intro p q hne
    simp only [Function.onFun, List.disjoint_left]
    intro c hc hc'
    rw [hv'.mem_kids] at hc hc'
    rw [hc] at hc'; cases hc'; exact hne rfl
  · rw [List.mem_flatMap] at hx
    obtain ⟨p, _, hx⟩ := hx
    exact hv'.alive_lt x (hv'.kid_alive hx)

theorem leads_rearrange (cap : Nat) (hm : Models f s) (hg : Models g s') (h1 : s.size = s'.size)
    (h2 : s.alive = s'.alive) (hd : ∀ y, f.getData y = g.getData y) :
    ∃ ops, (∀ op ∈ ops, op.isMove) ∧ ops.length ≤ 2 * s'.size ∧ Leads cap f ops g := by
  obtain ⟨ops, f1, s1, a1, a2, a3, a4, a5, a6, a7, a8⟩ := leads_apart cap hm
  have hv' := hg.valid
  obtain ⟨f2, b1, b2, b3⟩ := leads_build cap hv' (List.range s'.size) List.nodup_range a4 (a6.trans h1) (a7.trans h2) (by
    intro q
    rw [a8]
    split
    · rfl
    · rename_i h
      refine (hv'.kids_dead ?_).symm
      cases e : s'.alive q with
      | false => rfl
      | true => exact absurd (List.mem_range.2 (hv'.alive_lt q e)) h)
  have : f2 = g := forest_ext b2 hg fun y => by
    rw [← hd]; unfold Forest.getData; rw [b3, a5]
  subst this
  refine ⟨_, ?_, ?_, a3.append b1⟩
  · intro op hop
    rw [List.mem_append] at hop
    rcases hop with h | h
    · obtain ⟨x, rfl⟩ := a1 op h; trivial
    · simp only [List.mem_flatMap, List.mem_map] at h
      obtain ⟨p, _, c, _, rfl⟩ := h
      trivial
  · rw [List.length_append]
    have := kids_sum_le (T := T) hv'
    omega

/-! ### From nothing -/

theorem leads_create (cap : Nat) : ∀ (ds : List T) {f : Forest T} {s : Shape}, Models f s → s.size + ds.length ≤ cap →
    ∃ f' s', Leads cap f (ds.map Op.createRoot) f' ∧ Models f' s' ∧ s'.size = s.size + ds.length ∧
      (∀ x, s'.alive x = (s.alive x || decide (s.size ≤ x ∧ x < s.size + ds.length))) ∧ s'.kids = s.kids ∧
      ∀ x, f'.getData x = if s.size ≤ x then ds[x - s.size]? else f.getData x
  | [], f, s, hm, _ => by
    refine ⟨f, s, .nil f, hm, rfl, fun x => ?_, rfl, fun x => ?_⟩
    · have : ¬ (s.size ≤ x ∧ x < s.size + ([] : List T).length) := by simp
      simp
    · by_cases h : s.size ≤ x
      · have ha : s.alive x = false := by
          cases e : s.alive x with
          | false => rfl
          | true => have := hm.valid.alive_lt x e; omega
        have := hm.dataAlive x
        rw [ha] at this
        simp at this
        simp [h, this]
      · simp [h]
  | d :: ds, f, s, hm, hc => by
    simp only [List.length_cons] at hc
    obtain ⟨f1, a1, a2, a3⟩ := createRoot_models hm (cap := cap) (by omega) d
    obtain ⟨f2, s2, b1, b2, b3, b4, b5, b6⟩ := leads_create cap ds a2 (by simp only [Shape.addRoot]; omega)
    refine ⟨f2, s2, .cons (f1 := f1) (fun h => h) ?_ ?_ b1, b2, ?_, fun x => ?_, b5, fun x => ?_⟩
    · simp [Op.succeeds, a1, Op.succeeds.plain]
    · simp [Op.step, a1, Res.state]
    · rw [b3]; simp only [Shape.addRoot, List.length_cons]; omega
    · rw [b4]
      simp only [Shape.addRoot, upd, List.length_cons]
      by_cases hx : x = s.size
      · subst hx; simp
      · rw [if_neg hx]
        congr 1
        apply decide_eq_decide.2
        omega
    · have hsz : s.addRoot.size = s.size + 1 := rfl
      rw [b6, a3, hsz]
      by_cases hx : x = s.size
      · subst hx
        rw [if_neg (by omega), if_pos rfl, if_pos (Nat.le_refl _), Nat.sub_self, List.getElem?_cons_zero]
      · by_cases h : s.size ≤ x
        · have e : x - s.size = (x - (s.size + 1)) + 1 := by omega
          rw [if_pos (by omega), if_pos h, e, List.getElem?_cons_succ]
        · rw [if_neg (by omega), if_neg hx, if_neg h]

theorem removeLeaf_models (hm : Models f s) {x : Nat} (hx : s.alive x = true) (hk : s.kids x = []) :
    ∃ f', Forest.remove x f = .ok () f' ∧ Models f' (s.kill fun z => decide (z = x)) ∧
      ∀ y, f'.getData y = if y = x then none else f.getData y := by
  have ht : Tree.IsTree s.kids (.node x []) := ⟨by simpa using hk, trivial⟩
  obtain ⟨f', h⟩ := removeHooked_spec (S := Unit) (fun s _ => .ok s) hm ht hx ()
  obtain ⟨d, hd⟩ := data_some hm hx
  simp only [Tree.postorder, Tree.postorderL, List.nil_append, List.filterMap_cons, hd, List.filterMap_nil, feed,
    Option.map_none, Tree.root, Tree.preorder, Tree.preorderL, List.mem_singleton] at h
  refine ⟨f', ?_, h.2.1, h.2.2⟩
  unfold Forest.remove
  rw [h.1]

theorem leads_remove (cap : Nat) : ∀ (xs : List Nat) {f : Forest T} {s : Shape}, xs.Nodup → Models f s →
    (∀ x ∈ xs, s.alive x = true) → (s.kids = fun _ => []) →
    ∃ f' s', Leads cap f (xs.map Op.remove) f' ∧ Models f' s' ∧ s'.size = s.size ∧
      (∀ x, s'.alive x = (s.alive x && !decide (x ∈ xs))) ∧ (s'.kids = fun _ => []) ∧
      ∀ x, f'.getData x = if x ∈ xs then none else f.getData x
  | [], f, s, _, hm, _, hk => ⟨f, s, .nil f, hm, rfl, by simp, hk, by simp⟩
  | x :: xs, f, s, hnd, hm, hx, hk => by
    obtain ⟨f1, a1, a2, a3⟩ := removeLeaf_models hm (hx x (by simp)) (by rw [hk])
    obtain ⟨h1, h2⟩ := List.nodup_cons.1 hnd
    obtain ⟨f2, s2, b1, b2, b3, b4, b5, b6⟩ := leads_remove cap xs h2 a2 (by
      intro y hy
      have : y ≠ x := by rintro rfl; exact h1 hy
      simp [Shape.kill, hx y (by simp [hy]), this]) (by
      funext q; simp [Shape.kill, hk])
    refine ⟨f2, s2, .cons (f1 := f1) (fun h => h) ?_ ?_ b1, b2, b3, fun y => ?_, b5, fun y => ?_⟩
    · simp [Op.succeeds, a1, Op.succeeds.plain]
    · simp [Op.step, a1, Res.state]
    · rw [b4]
      simp only [Shape.kill, List.mem_cons, Bool.decide_or, Bool.not_or, Bool.and_assoc]
    · rw [b6, a3]
      simp only [List.mem_cons]
      by_cases e : y = x <;> by_cases e' : y ∈ xs <;> simp [e, e']

theorem leads_all (d0 : T) (hg : Models g s') (hc : s'.size ≤ cap) :
    ∃ ops, (∀ op ∈ ops, op.isBasic) ∧ ops.length ≤ 4 * s'.size ∧ Leads cap Forest.new ops g := by
  have hv' := hg.valid
  let ds : List T := (List.range s'.size).map fun x => (g.getData x).getD d0
  have hlen : ds.length = s'.size := by simp [ds]
  obtain ⟨f1, s1, a1, a2, a3, a4, a5, a6⟩ := leads_create cap ds (Sample.new_models (T := T))
    (by rw [hlen]; simpa [Shape.empty] using hc)
  simp only [Shape.empty, Nat.zero_add, hlen, Nat.zero_le, true_and, Bool.false_or, Nat.sub_zero, if_true] at a3 a4 a5 a6
  obtain ⟨f2, s2, b1, b2, b3, b4, b5, b6⟩ := leads_remove cap ((List.range s'.size).filter fun x => !s'.alive x)
    (List.nodup_range.filter _) a2 (fun x hx => by
      have := (List.mem_filter.1 hx).1
      rw [a4]; simpa using this) a5
  have hal : s2.alive = s'.alive := by
    funext x
    rw [b4, a4]
    have := hv'.alive_lt x
    simp only [List.mem_filter, List.mem_range]
    cases e : s'.alive x with
    | true => have := this e; simp [this]
    | false => simp
  obtain ⟨ops, c1, c2, c3⟩ := leads_rearrange cap b2 hg (b3.trans a3) hal (fun y => by
    rw [b6, a6]
    have hda := hg.dataAlive y
    simp only [List.mem_filter, List.mem_range]
    by_cases hy : y < s'.size
    · cases e : s'.alive y with
      | true =>
        rw [e] at hda
        obtain ⟨v, hv⟩ := Option.isSome_iff_exists.1 hda
        simp [ds, hy, hv]
      | false =>
        rw [e] at hda
        simp at hda
        simp [hy, hda]
    · have : s'.alive y = false := by
        cases e : s'.alive y with
        | false => rfl
        | true => exact absurd (hv'.alive_lt y e) hy
      rw [this] at hda
      simp at hda
      simp [hy, hda, ds])
  refine ⟨_, ?_, ?_, (a1.append b1).append c3⟩
  · intro op hop
    simp only [List.mem_append, List.mem_map] at hop
    rcases hop with (⟨_, _, rfl⟩ | ⟨_, _, rfl⟩) | h
    · trivial
    · trivial
    · have := c1 op h
      cases op with
      | insert _ d => cases d <;> exact this
      | _ => first | trivial | exact this
  · have : ((List.range s'.size).filter fun x => !s'.alive x).length ≤ s'.size :=
      Nat.le_trans (List.length_filter_le ..) (by simp)
    simp only [List.length_append, List.length_map, hlen]
    omega

end Treena
