import Verif.Proof.Remove
/-! Growing a copy of a tree node by node. -/

namespace Treena

variable {s : Shape}

/-- A new node as last child of `p`. -/
def Shape.addChild (s : Shape) (p : Nat) : Shape := s.addRoot.move s.size (.lastChildOf p)

theorem Shape.Valid.addChild_eq (hv : s.Valid) (p : Nat) :
    s.addChild p = Shape.mk (s.size + 1) (upd s.alive s.size true) (upd s.parent s.size (some p))
      (upd s.kids p (s.kids p ++ [s.size])) := by
  have hk : ∀ q, s.size ∉ s.kids q := fun q hm => by
    have := hv.alive_lt _ (hv.kid_alive hm); omega
  unfold Shape.addChild Shape.move
  simp only [Shape.placeParent, Shape.attach, Shape.detach, Shape.addRoot, Place.put, Shape.mk.injEq,
    true_and]
  refine ⟨?_, ?_⟩
  · funext z; unfold upd; split <;> rfl
  · funext z; simp only [upd, List.erase_of_not_mem (hk _)]

/-- Nothing hangs on IDs that were not handed out. -/
def Shape.Fresh (s : Shape) : Prop := ∀ q, s.size ≤ q → s.kids q = []

theorem Shape.Valid.fresh (hv : s.Valid) : s.Fresh := fun q hq => by
  apply hv.dead_kids
  cases e : s.alive q with
  | false => rfl
  | true => have := hv.alive_lt q e; omega

/-- Same as `addChild`, written out. -/
def Shape.addChild' (s : Shape) (p : Nat) : Shape :=
  Shape.mk (s.size + 1) (upd s.alive s.size true) (upd s.parent s.size (some p))
    (upd s.kids p (s.kids p ++ [s.size]))

namespace Tree

mutual
/-- Copy the tree under `p`. -/
def graft {α : Type} (s : Shape) (p : Nat) : Tree α → Shape
  | .node _ ts => graftL (s.addChild' p) s.size ts
def graftL {α : Type} (s : Shape) (p : Nat) : List (Tree α) → Shape
  | [] => s
  | t :: ts => graftL (graft s p t) p ts
end

mutual
theorem preorder_number {α : Type} : ∀ (t : Tree α) (b : Nat), (t.number b).preorder = List.range' b t.count
  | .node x ts, b => by simp [number, preorder, count, preorder_numberL ts (b + 1), List.range'_succ]
theorem preorder_numberL {α : Type} : ∀ (ts : List (Tree α)) (b : Nat),
    preorderL (numberL b ts) = List.range' b (countL ts)
  | [], b => rfl
  | t :: ts, b => by
    simp [numberL, preorderL, countL, preorder_number t b, preorder_numberL ts (b + t.count)]
end

theorem root_number {α : Type} (t : Tree α) (b : Nat) : (t.number b).root = b := by
  cases t; simp [number, root]

/-- Everything below `n` except possibly the child list of `p` is as in `s`. -/
structure SameBelow (s s' : Shape) (n p : Nat) : Prop where
  alive : ∀ x, x < n → s'.alive x = s.alive x
  parent : ∀ x, x < n → s'.parent x = s.parent x
  kids : ∀ x, x < n → x ≠ p → s'.kids x = s.kids x

theorem SameBelow.trans {s1 s2 s3 : Shape} {n m p : Nat} (h1 : SameBelow s1 s2 n p)
    (h2 : SameBelow s2 s3 m p) (hnm : n ≤ m) : SameBelow s1 s3 n p :=
  ⟨fun x hx => by rw [h2.alive x (by omega), h1.alive x hx],
   fun x hx => by rw [h2.parent x (by omega), h1.parent x hx],
   fun x hx hp => by rw [h2.kids x (by omega) hp, h1.kids x hx hp]⟩

theorem addChild'_same (s : Shape) {p : Nat} : SameBelow s (s.addChild' p) s.size p where
  alive := fun x hx => by simp only [Shape.addChild', Shape.upd]; rw [if_neg (by omega)]
  parent := fun x hx => by simp only [Shape.addChild', Shape.upd]; rw [if_neg (by omega)]
  kids := fun x hx hp => by simp only [Shape.addChild', Shape.upd]; rw [if_neg hp]

theorem addChild'_fresh {s : Shape} (hf : s.Fresh) {p : Nat} (hp : p < s.size) : (s.addChild' p).Fresh := by
  intro q hq
  simp only [Shape.addChild', Shape.upd] at hq ⊢
  rw [if_neg (by omega)]; exact hf q (by omega)

mutual
theorem graft_spec {α : Type} : ∀ (t : Tree α) (s : Shape) (p : Nat), s.Fresh → p < s.size →
    (graft s p t).size = s.size + t.count ∧ (graft s p t).Fresh ∧
    SameBelow s (graft s p t) s.size p ∧
    (graft s p t).kids p = s.kids p ++ [s.size] ∧
    IsTree (graft s p t).kids (t.number s.size) ∧
    (graft s p t).parent s.size = some p ∧
    ∀ x, s.size ≤ x → x < (graft s p t).size → (graft s p t).alive x = true
  | .node y ts, s, p, hf, hp => by
    have hf1 := addChild'_fresh hf hp
    have hs1 := addChild'_same s (p := p)
    obtain ⟨h1, h2, h3, h4, h5, h6⟩ := graftL_spec ts (s.addChild' p) s.size hf1 (by simp [Shape.addChild'])
    have hsz : (s.addChild' p).size = s.size + 1 := rfl
    rw [hsz] at h1 h3 h4 h5 h6
    simp only [graft]
    have hk0 : (s.addChild' p).kids s.size = [] := by
      simp only [Shape.addChild', Shape.upd]; rw [if_neg (by omega)]; exact hf _ (Nat.le_refl _)
    refine ⟨by rw [h1, count]; omega, h2, ⟨?_, ?_, ?_⟩, ?_, ?_, ?_, ?_⟩
    · intro x hx; rw [h3.alive x (by omega), hs1.alive x hx]
    · intro x hx; rw [h3.parent x (by omega), hs1.parent x hx]
    · intro x hx hxp; rw [h3.kids x (by omega) (by omega), hs1.kids x hx hxp]
    · rw [h3.kids p (by omega) (by omega)]; simp [Shape.addChild', Shape.upd]
    · simp only [number, IsTree]
      exact ⟨by rw [h4, hk0]; rfl, h5⟩
    · rw [h3.parent _ (by omega)]; simp [Shape.addChild', Shape.upd]
    · intro x hx hx2
      by_cases e : x = s.size
      · subst e; rw [h3.alive _ (by omega)]; simp [Shape.addChild', Shape.upd]
      · exact h6 x (by omega) hx2
theorem graftL_spec {α : Type} : ∀ (ts : List (Tree α)) (s : Shape) (p : Nat), s.Fresh → p < s.size →
    (graftL s p ts).size = s.size + countL ts ∧ (graftL s p ts).Fresh ∧
    SameBelow s (graftL s p ts) s.size p ∧
    (graftL s p ts).kids p = s.kids p ++ (numberL s.size ts).map root ∧
    IsForest (graftL s p ts).kids (numberL s.size ts) ∧
    ∀ x, s.size ≤ x → x < (graftL s p ts).size → (graftL s p ts).alive x = true
  | [], s, p, hf, hp => by
    simp only [graftL, countL, numberL, IsForest]
    exact ⟨rfl, hf, ⟨fun _ _ => rfl, fun _ _ => rfl, fun _ _ _ => rfl⟩, by simp, trivial, by omega⟩
  | t :: ts, s, p, hf, hp => by
    obtain ⟨a1, a2, a3, a4, a5, a6, a7⟩ := graft_spec t s p hf hp
    obtain ⟨b1, b2, b3, b4, b5, b6⟩ := graftL_spec ts (graft s p t) p a2 (by omega)
    simp only [graftL, countL, numberL, IsForest, List.map_cons]
    rw [a1] at b1 b3 b4 b5 b6
    refine ⟨by rw [b1]; omega, b2, a3.trans b3 (by omega), ?_, ⟨?_, b5⟩, ?_⟩
    · rw [b4, a4, root_number]; simp
    · refine isTree_congr _ (fun y hy => ?_) a5
      rw [preorder_number, List.mem_range'_1] at hy
      rw [b3.kids y (by omega) (by omega)]
    · intro x hx hx2
      by_cases e : x < s.size + t.count
      · rw [b3.alive x e]; exact a7 x hx (by omega)
      · exact b6 x (by omega) hx2
end

end Tree
end Treena
