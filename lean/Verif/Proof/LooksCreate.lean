import Verif.Proof.LooksInsert
/-!
# How much of a forest `create_root` and `create_insert` look at
-/
set_option autoImplicit false
namespace Treena
variable {T : Type} {k n : Nat} {cap um : Nat} {f g : Forest T}

/-- One more node, a root. -/
def Forest.grow (f : Forest T) (d : T) : Forest T := ⟨⟨f.hier.nbrs ++ [Neighbors.newRoot f.hier.nbrs.length]⟩, f.data ++ [some d]⟩

theorem grow_agree (d : T) {L : List Nat} (h1 : g.hier.nbrs.length = f.hier.nbrs.length) (h2 : g.data.length = f.data.length)
    (h : AgreeAt L f g) : AgreeAt L (f.grow d) (g.grow d) := fun x hx => by
  obtain ⟨a, b⟩ := h x hx
  unfold Forest.grow
  simp only [List.getElem?_append, h1, h2, a, b]
  exact ⟨trivial, trivial⟩
theorem grow_same (d : T) {x : Nat} (h1 : x ≠ g.hier.nbrs.length) (h2 : x ≠ g.data.length) :
    (g.grow d).hier.nbrs[x]? = g.hier.nbrs[x]? ∧ (g.grow d).data[x]? = g.data[x]? := by
  have one : ∀ {α : Type} (l : List α) (a : α), x ≠ l.length → (l ++ [a])[x]? = l[x]? := by
    intro α l a hx
    rw [List.getElem?_append]
    split
    · rfl
    · rename_i hlt
      rw [List.getElem?_eq_none (by simp; omega), List.getElem?_eq_none (by omega)]
  exact ⟨one _ _ h1, one _ _ h2⟩
theorem grow_topWithin (d : T) : ∀ {n x : Nat}, f.TopWithin n x → (f.grow d).TopWithin n x
  | 0, _, e => e.elim
  | n + 1, x, e => fun p hp => by
    have : (f.hier.neighbors x).bind Neighbors.parent = some p := by
      by_cases hx : x = f.hier.nbrs.length
      · subst hx
        exact absurd hp (by simp [Forest.grow, Hier.neighbors, Neighbors.newRoot, Neighbors.isAlive, Option.filter])
      · have e1 : (f.grow d).hier.nbrs[x]? = f.hier.nbrs[x]? := by
          unfold Forest.grow
          rw [List.getElem?_append]
          split
          · rfl
          · rename_i hlt
            rw [List.getElem?_eq_none (by simp; omega), List.getElem?_eq_none (by omega)]
        unfold Hier.neighbors at hp ⊢
        rw [e1] at hp
        exact hp
    exact grow_topWithin d (e p this)

theorem TouchesNew.grown {A : Type} {F : Forest T → Forest T × A} (d : T) (h : Touches k (f.grow d) F) :
    TouchesNew (k + 2) f fun g => F (g.grow d) := by
  obtain ⟨L, l, e⟩ := h
  have e0 := e (f.grow d) fun _ _ => ⟨rfl, rfl⟩
  refine ⟨f.hier.nbrs.length :: f.data.length :: L, by simp; omega, fun g h1 h2 hg => ?_⟩
  have ha := grow_agree d h1 h2 hg
  obtain ⟨e1, e2, e3⟩ := e (g.grow d) fun x hx => ha x (by simp [hx])
  refine ⟨e1, fun x hx => ?_, fun x hx => ?_⟩
  · by_cases h : x ∈ L
    · exact e2 x h
    · have a1 := e3 x h
      have a2 := e0.2.2 x h
      have a3 := ha x hx
      exact ⟨a1.1.trans (a3.1.trans a2.1.symm), a1.2.trans (a3.2.trans a2.2.symm)⟩
  · simp only [List.mem_cons, not_or] at hx
    have a1 := e3 x hx.2.2
    have a2 := grow_same (g := g) d (x := x) (by rw [h1]; exact hx.1) (by rw [h2]; exact hx.2.1)
    exact ⟨a1.1.trans a2.1, a1.2.trans a2.2⟩
theorem TouchesNew.refused {A : Type} {F : Forest T → Forest T × A} {a : A}
    (h : ∀ g, g.hier.nbrs.length = f.hier.nbrs.length → g.data.length = f.data.length → F g = (g, a)) : TouchesNew k f F :=
  ⟨[], by simp, fun g h1 h2 hg => by
    rw [h g h1 h2, h f rfl rfl]
    exact ⟨rfl, hg, fun _ _ => ⟨rfl, rfl⟩⟩⟩

theorem TouchesNew.createRoot (b : Build) (d : T) (hl : f.data.length = f.hier.nbrs.length) :
    TouchesNew 2 f fun g => b.exec cap um g (.createRoot d) := by
  by_cases hc : f.hier.nbrs.length < cap
  · have := TouchesNew.grown (f := f) (k := 0) (F := fun g => (g, (Ans.id f.hier.nbrs.length : Ans T))) d
      ⟨[], by simp, fun g _ => ⟨rfl, fun _ h => (List.not_mem_nil h).elim, fun _ _ => ⟨rfl, rfl⟩⟩⟩
    obtain ⟨L, l, e⟩ := this
    have run : ∀ g : Forest T, g.hier.nbrs.length = f.hier.nbrs.length → g.data.length = f.data.length →
        b.exec cap um g (.createRoot d) = (g.grow d, .id f.hier.nbrs.length) := by
      intro g h1 h2
      simp [Build.exec, Req.exec, Forest.createRoot, Forest.onHier, M.zoom, M.run_bind, Hier.createRoot, Hier.fromUsize, h1, hc, M.read, h2, hl,
        Forest.pushData, M.modify, Ans.ofRes, Forest.grow]
    refine ⟨L, l, fun g h1 h2 hg => ?_⟩
    dsimp only
    rw [run g h1 h2, run f rfl rfl]
    exact e g h1 h2 hg
  · refine .refused (a := .panicked) fun g h1 h2 => ?_
    simp [Build.exec, Req.exec, Forest.createRoot, Forest.onHier, M.zoom, M.run_bind, Hier.createRoot, Hier.fromUsize, h1, hc, Ans.ofRes, Ans.ofFail]

theorem TouchesNew.createInsert (b : Build) (d : T) (dest : InsertAs) (e : f.TopWithin n dest.toAnchor) :
    TouchesNew (n + 29) f fun g => b.exec cap um g (.createInsert d dest) := by
  by_cases hv : dest.toAnchor < f.hier.nbrs.length
  · by_cases hc : f.hier.nbrs.length < cap
    · have hb : TouchesH (n + 27) (f.grow d).hier (Hier.insert f.hier.nbrs.length dest >>= fun r => match r with
          | .error _ => M.panic "[precondition] newly created node is independent from the destination"
          | .ok () => pure f.hier.nbrs.length : M Hier Nat) :=
        TouchesH.bind (k := 0) (TouchesH.insert _ _ (Forest.topWithin_iff.mp (grow_topWithin d e))) fun r _ => by
          rcases r with _ | ⟨⟩
          · exact TouchesH.panic _
          · exact TouchesH.pure _
      obtain ⟨L, l, e⟩ := TouchesNew.grown d (Touches.onHier (f := f.grow d) (fun x => (.id x : Ans T)) hb)
      have run : ∀ g : Forest T, g.hier.nbrs.length = f.hier.nbrs.length →
          b.exec cap um g (.createInsert d dest) = Ans.ofRes (fun x => (.id x : Ans T)) (Forest.onHier (Hier.insert f.hier.nbrs.length dest >>= fun r => match r with
          | .error _ => M.panic "[precondition] newly created node is independent from the destination"
          | .ok () => pure f.hier.nbrs.length : M Hier Nat) (g.grow d)) := by
        intro g h1
        simp only [Build.exec, Req.exec, Forest.createInsert, Forest.createInsertMomo, Forest.onHier, M.zoom, M.run_bind, M.read, Hier.isValid,
          hv, decide_true, Bool.not_true, Bool.false_eq_true, if_false, Hier.createRoot, Hier.fromUsize, h1, hc, if_true, Forest.pushData, M.modify, Forest.grow]
        cases Hier.insert f.hier.nbrs.length dest ⟨g.hier.nbrs ++ [Neighbors.newRoot f.hier.nbrs.length]⟩ with
        | fail e s => rfl
        | ok r s => rcases r with _ | ⟨⟩ <;> rfl
      refine ⟨L, by omega, fun g h1 h2 hg => ?_⟩
      dsimp only
      rw [run g h1, run f rfl]
      exact e g h1 h2 hg
    · refine .refused (a := .panicked) fun g h1 h2 => ?_
      simp [Build.exec, Req.exec, Forest.createInsert, Forest.createInsertMomo, M.read, Hier.isValid, Nat.not_le.mpr hv, Forest.onHier, M.zoom, M.run_bind,
        Hier.createRoot, Hier.fromUsize, h1, hc, Ans.ofRes, Ans.ofFail]
  · refine .refused (a := .panicked) fun g h1 h2 => ?_
    have hv' : ¬ dest.toAnchor < g.hier.nbrs.length := by omega
    simp [Build.exec, Req.exec, Forest.createInsert, Forest.createInsertMomo, M.read, Hier.isValid, hv', M.run_bind, Ans.ofRes, Ans.ofFail, M.panic, M.throw]

theorem TouchesNew.guard {A : Type} {F : Forest T → Forest T × A} {a : A} (y : Nat) (hF : TouchesNew k f F) :
    TouchesNew (1 + k) f fun g => if g.isAlive y then F g else (g, a) := by
  obtain ⟨L, l, e⟩ := hF
  refine ⟨y :: L, by simp; omega, fun g h1 h2 hg => ?_⟩
  have hy : g.isAlive y = f.isAlive y := by unfold Forest.isAlive; rw [(hg y (by simp)).2]
  have e0 := e f rfl rfl fun _ _ => ⟨rfl, rfl⟩
  dsimp only
  rw [hy]
  cases f.isAlive y with
  | false => exact ⟨rfl, hg, fun _ _ => ⟨rfl, rfl⟩⟩
  | true =>
    obtain ⟨e1, e2, e3⟩ := e g h1 h2 fun x hx => hg x (by simp [hx])
    refine ⟨e1, fun x hx => ?_, fun x hx => e3 x fun h => hx (by simp [h])⟩
    by_cases h : x ∈ L
    · exact e2 x h
    · have a1 := e3 x h
      have a2 := e0.2.2 x h
      have a3 := hg x hx
      exact ⟨a1.1.trans (a3.1.trans a2.1.symm), a1.2.trans (a3.2.trans a2.2.symm)⟩

theorem TouchesNew.nodeCreate (b : Build) (y : Nat) (d : T) (dest : AdoptAs) (e : f.TopWithin n y) :
    TouchesNew (n + 30) f fun g => b.exec cap um g (.nodeCreate y d dest) := by
  have e' : f.TopWithin n (dest.insertWithAnchor y).toAnchor := by
    cases dest <;> exact e
  have run : ∀ g : Forest T, b.exec cap um g (.nodeCreate y d dest) =
      if g.isAlive y then b.exec cap um g (.createInsert d (dest.insertWithAnchor y)) else (g, .absent) := fun g => rfl
  obtain ⟨L, l, h⟩ := TouchesNew.guard (a := (.absent : Ans T)) y (TouchesNew.createInsert (cap := cap) (um := um) b d _ e')
  refine ⟨L, by omega, fun g h1 h2 hg => ?_⟩
  dsimp only
  rw [run, run]
  exact h g h1 h2 hg

end Treena
