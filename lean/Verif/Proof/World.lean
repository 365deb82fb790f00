import Verif.Proof.PlainStep
import Verif.Props.Proxy
import Verif.Spec.World
/-!
# The naive forests simulate the modelled code: several forests
-/
set_option autoImplicit false

namespace Treena
variable {T : Type}

namespace Plain
open Wood
variable {r : Plain T} {f : Forest T} {s : Shape}

/-- The data of the naive forest are those of the arena. -/
theorem Abs.mem (h : Abs r f s) (x : Nat) (d : T) : (x, d) ∈ Tree.preorderL r.trees ↔ f.getData x = some d := by
  rw [Tree.preorderL_eq, List.mem_flatMap]
  constructor
  · rintro ⟨t, ht, hp⟩
    exact h.stored t ht _ hp
  · intro hd
    rw [h.getData] at hd
    obtain ⟨u, hu, rfl⟩ := Option.map_eq_some_iff.1 hd
    obtain ⟨h1, t, ht, h2, -⟩ := findL_some hu
    refine ⟨t, ht, ?_⟩
    have := h2 _ (Tree.root_mem_preorder u)
    rw [show u.root = (x, u.root.2) from by rw [← h1]; rfl] at this
    exact this

theorem sk_recast (c : Nat × T → T) : ∀ t : Tree (Nat × T), sk (t.map fun p => (p.1, c p)) = sk t := by
  intro t
  rw [sk, sk, Tree.map_map]
  rfl

theorem Abs.dup (h : Abs r f s) (cl : T → T) : Abs (r.dup fun d => some (cl d)) (f.mapData cl) s := by
  have hid : (r.dup fun d => some (cl d)).trees.map idOf = r.trees.map idOf := by
    simp only [Plain.dup, List.map_map]
    refine List.map_congr_left fun t _ => ?_
    show idOf (t.map _) = _
    rw [← root_sk, sk_recast (fun p => (some (cl p.2)).getD p.2), root_sk]
  refine ⟨h.models.mapData cl, h.size, ⟨fun t ht => ?_, fun x => by rw [hid]; exact h.shaped.roots x,
    by rw [hid]; exact h.shaped.nodup⟩, fun t ht p hp => ?_⟩
  · obtain ⟨u, hu, rfl⟩ := List.mem_map.1 ht
    rw [sk_recast (fun p => (some (cl p.2)).getD p.2)]
    exact h.shaped.tree u hu
  · obtain ⟨u, hu, rfl⟩ := List.mem_map.1 ht
    rw [Tree.preorder_map] at hp
    obtain ⟨q, hq, rfl⟩ := List.mem_map.1 hp
    rw [mapData_getData, h.stored u hu q hq]
    rfl

theorem Abs.dupBy (h : Abs r f s) (cl : T → Option T) :
    ((Tree.preorderL r.trees).all (fun p => (cl p.2).isSome) = true ∧ ∃ g, f.tryClone cl = .ok g ∧ Abs (r.dup cl) g s) ∨
    ((Tree.preorderL r.trees).all (fun p => (cl p.2).isSome) = false ∧
      f.tryClone cl = .error (.panic "T::clone panicked")) := by
  have hiff : (f.data.all fun o => (o.map fun d => (cl d).isSome).getD true) =
      (Tree.preorderL r.trees).all fun p => (cl p.2).isSome := by
    rw [Bool.eq_iff_iff, List.all_eq_true, List.all_eq_true]
    constructor
    · rintro hall ⟨x, d⟩ hp
      have hd := (h.mem x d).1 hp
      have := hall (some d) (by
        unfold Forest.getData at hd
        cases he : f.data[x]? with
        | none => rw [he] at hd; cases hd
        | some o => rw [he] at hd; change o = some d at hd; subst hd; exact List.mem_of_getElem? he)
      simpa using this
    · intro hall o ho
      cases o with
      | none => rfl
      | some d =>
        obtain ⟨x, hx⟩ := List.getElem?_of_mem ho
        have hd : f.getData x = some d := by unfold Forest.getData; rw [hx]; rfl
        have := hall (x, d) ((h.mem x d).2 hd)
        simpa using this
  unfold Forest.tryClone
  rw [hiff]
  cases hall : (Tree.preorderL r.trees).all fun p => (cl p.2).isSome with
  | false => exact .inr ⟨rfl, by simp⟩
  | true =>
    refine .inl ⟨rfl, _, by simp; rfl, ?_⟩
    have h1 := h.dup fun d => (cl d).getD d
    rw [hall, List.all_eq_true] at hiff
    have h2 : f.mapData (fun d => (cl d).getD d) = ⟨f.hier, f.data.map (·.bind cl)⟩ := by
      unfold Forest.mapData
      congr 1
      refine List.map_congr_left fun o ho => ?_
      have := hiff o ho
      cases o with
      | none => rfl
      | some d =>
        obtain ⟨c, hc⟩ := Option.isSome_iff_exists.1 (by simpa using this)
        simp [hc]
    rw [h2] at h1
    exact h1

/-- The forests correspond one by one. -/
def Worlds (w : List (Plain T)) (v : List (Forest T)) : Prop := List.Forall₂ (fun r f => ∃ s, Abs r f s) w v

theorem Worlds.get {w : List (Plain T)} {v : List (Forest T)} (h : Worlds w v) (i : Nat) :
    (w[i]? = none ∧ v[i]? = none) ∨ ∃ r f s, w[i]? = some r ∧ v[i]? = some f ∧ Abs r f s := by
  induction h generalizing i with
  | nil => left; simp
  | cons h1 h2 ih =>
    cases i with
    | zero => obtain ⟨s, hs⟩ := h1; exact .inr ⟨_, _, s, rfl, rfl, hs⟩
    | succ i => simpa using ih i

theorem Worlds.set {w : List (Plain T)} {v : List (Forest T)} (h : Worlds w v) (i : Nat) (ha : Abs r f s) :
    Worlds (w.set i r) (v.set i f) := by
  induction h generalizing i with
  | nil => exact List.Forall₂.nil
  | cons h1 h2 ih =>
    cases i with
    | zero => exact List.Forall₂.cons ⟨s, ha⟩ h2
    | succ i => exact List.Forall₂.cons h1 (ih i)

theorem Worlds.push {w : List (Plain T)} {v : List (Forest T)} (h : Worlds w v) (ha : Abs r f s) :
    Worlds (w ++ [r]) (v ++ [f]) := by
  induction h with
  | nil => exact List.Forall₂.cons ⟨s, ha⟩ List.Forall₂.nil
  | cons h1 h2 ih => exact List.Forall₂.cons h1 ih

theorem Worlds.act {w : List (Plain T)} {v : List (Forest T)} (h : Worlds w v) (hnew : Abs (empty : Plain T) Forest.new Shape.empty)
    (cap um : Nat) (a : Act T) {y : List (Plain T) × Ans T} (hy : Plain.act cap um w a = some y) :
    (a.exec cap um v).2 = y.2 ∧ Worlds y.1 (a.exec cap um v).1 := by
  have hlen : w.length = v.length := h.length_eq
  cases a with
  | new =>
    cases hy
    exact ⟨by rw [hlen]; rfl, h.push hnew⟩
  | on i q =>
    simp only [Plain.act, Act.exec] at hy ⊢
    rcases h.get i with ⟨e1, e2⟩ | ⟨r, f, s, e1, e2, ha⟩
    · rw [e1] at hy; rw [e2]
      cases hy; exact ⟨rfl, h⟩
    · rw [e1] at hy; rw [e2]
      obtain ⟨z, hz, rfl⟩ := Option.map_eq_some_iff.1 hy
      obtain ⟨h1, s', h2⟩ := ha.exec cap um q hz
      exact ⟨h1, h.set i h2⟩
  | foreign dst src x cl limit =>
    simp only [Plain.act, Act.exec] at hy ⊢
    rcases h.get dst with ⟨e1, e2⟩ | ⟨r, f, s, e1, e2, ha⟩
    · rw [e1] at hy; rw [e2]
      cases hy; exact ⟨rfl, h⟩
    rcases h.get src with ⟨e3, e4⟩ | ⟨r', g, s', e3, e4, hb⟩
    · rw [e1, e3] at hy; rw [e2, e4]
      cases hy; exact ⟨rfl, h⟩
    rw [e1, e3] at hy; rw [e2, e4]
    simp only at hy ⊢
    rw [hb.models.isAlive]
    rcases hb.find x with ⟨hx, e⟩ | ⟨hx, u, e, hu, ht⟩
    · rw [e] at hy
      cases hy
      rw [hx, if_neg (by simp)]
      exact ⟨rfl, h⟩
    · rw [e] at hy
      simp only at hy
      rw [hx]
      split at hy
      · rename_i hne
        cases hy
        rw [if_pos ⟨hne, rfl⟩]
        have hr : (sk u).root = x := by rw [root_sk, hu]
        have hco := cloneForeign_spec (cap := cap) (cl := cl) (hook := fun l a b => Req.record limit l (a, b)) ha.models
          hb.models ht (by rw [hr]; exact hx) ([] : List (Nat × Nat))
        rw [hr] at hco
        obtain ⟨h1, s'', h2⟩ := ha.copyTree cap (hb.stored.find e) cl limit hco
        exact ⟨h1, h.set dst h2⟩
      · rename_i hne
        cases hy
        rw [if_neg (by simpa using hne)]
        exact ⟨rfl, h⟩
  | dup i cl =>
    simp only [Plain.act, Act.exec] at hy ⊢
    rcases h.get i with ⟨e1, e2⟩ | ⟨r, f, s, e1, e2, ha⟩
    · rw [e1] at hy; rw [e2]
      cases hy; exact ⟨rfl, h⟩
    · rw [e1] at hy; rw [e2]
      simp only at hy ⊢
      rcases ha.dupBy cl with ⟨h1, g, h2, h3⟩ | ⟨h1, h2⟩
      · rw [h1] at hy
        simp only [if_true] at hy
        cases hy
        rw [h2]
        exact ⟨by simp [hlen], h.push h3⟩
      · rw [h1] at hy
        simp only [Bool.false_eq_true, if_false] at hy
        cases hy
        rw [h2]
        exact ⟨rfl, h⟩

end Plain
end Treena
