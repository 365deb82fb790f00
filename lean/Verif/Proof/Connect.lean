import Verif.Proof.Raw
/-! Effect of `connect_triangle` on an arena, case by case. -/
namespace Treena
namespace Hier

theorem read_ok {σ α : Type} {f : σ → R α} {s : σ} {a : α} (h : f s = .ok a) :
    M.read f s = .ok a s := by simp [M.read, h]

theorem read_error {σ α : Type} {f : σ → R α} {s : σ} {e : Fail} (h : f s = .error e) :
    M.read f s = .fail e s := by simp [M.read, h]

theorem lastChild_none {h : Hier} {p : Nat} (hp : h.live p) (hf : (h.get p).first = none) :
    (h.get p).lastChild h = .ok none := by
  unfold Neighbors.lastChild Neighbors.firstLastChild
  rw [firstChild_live hp, hf]; unfold live at hp; simp [hp]

theorem lastChild_some {h : Hier} {p c l : Nat} (hp : h.live p) (hf : (h.get p).first = some c)
    (hl : (h.get c).prevCyc = some l) :
    (h.get p).lastChild h = .ok (some l) := by
  unfold Neighbors.lastChild Neighbors.firstLastChild
  have hc : h.live c := live_iff_prevCyc.2 ⟨_, hl⟩
  rw [firstChild_live hp, hf]; simp only [neighbors_live hc, hl]; unfold live at hp; simp [hp]

theorem firstLastChild_none {h : Hier} {p : Nat} (hp : h.live p) (hf : (h.get p).first = none) :
    (h.get p).firstLastChild h = .ok none := by
  unfold Neighbors.firstLastChild
  rw [firstChild_live hp, hf]; unfold live at hp; simp [hp]

theorem firstLastChild_some {h : Hier} {p c l : Nat} (hp : h.live p)
    (hf : (h.get p).first = some c) (hl : (h.get c).prevCyc = some l) :
    (h.get p).firstLastChild h = .ok (some (c, l)) := by
  unfold Neighbors.firstLastChild
  have hc : h.live c := live_iff_prevCyc.2 ⟨_, hl⟩
  rw [firstChild_live hp, hf]; simp only [neighbors_live hc, hl]; unfold live at hp; simp [hp]

theorem prevSibling_eq {h : Hier} {x v : Nat} (hx : (h.get x).prevCyc = some v) (hv : h.live v) :
    (h.get x).prevSibling h = .ok ((h.get v).next.bind fun _ => some v) := by
  unfold Neighbors.prevSibling; simp [hx, neighbors_live hv]

/-- `connect_triangle(None, None, None)`. -/
theorem connect_none (h : Hier) : connectTriangle none none none h = .ok () h := by
  simp [connectTriangle, connectPrev, connectNext, connectParent]

/-- `connect_triangle(Some(p), None, None)`. -/
theorem connect_p {h : Hier} {p : Nat} (hp : h.live p) :
    connectTriangle (some p) none none h = .ok () (h.put p { h.get p with first := none }) := by
  simp [connectTriangle, connectPrev, connectNext, connectParent, updNbr_live hp]

/-- `connect_triangle(Some(p), Some(a), Some(b))`. -/
theorem connect_pab {h : Hier} {p a b : Nat} (hab : a ≠ b) (ha : h.live a) (hb : h.live b) :
    connectTriangle (some p) (some a) (some b) h = .ok ()
      ((h.put a { h.get a with parent := some p, next := some b }).put b
        { h.get b with parent := some p, prevCyc := some a }) := by
  have hb' : (h.put a { h.get a with parent := some p, next := some b }).live b := by
    rw [live_put (live_lt ha)]; rw [if_neg (Ne.symm hab)]; exact hb
  have hg : (h.put a { h.get a with parent := some p, next := some b }).get b = h.get b := by
    rw [get_put (live_lt ha), if_neg (Ne.symm hab)]
  simp [connectTriangle, connectPrev, connectNext, connectParent, updNbr_live ha, hab,
    nextChildPrevCyclic, M.read, updNbr_live hb', hg]

/-- `connect_triangle(Some(p), None, Some(b))`; `l` is the current last child of `p`, if any. -/
theorem connect_pb {h : Hier} {p b : Nat} {l : Option Nat} (hpb : p ≠ b) (hp : h.live p)
    (hb : h.live b) (hl : (h.get p).lastChild h = .ok l) :
    connectTriangle (some p) none (some b) h = .ok ()
      ((h.put b { h.get b with parent := some p, prevCyc := some (l.getD b) }).put p
        { h.get p with first := some b }) := by
  have hp' : (h.put b { h.get b with parent := some p, prevCyc := some (l.getD b) }).live p := by
    rw [live_put (live_lt hb), if_neg hpb]; exact hp
  have hg : (h.put b { h.get b with parent := some p, prevCyc := some (l.getD b) }).get p
      = h.get p := by
    rw [get_put (live_lt hb), if_neg hpb]
  simp [connectTriangle, connectPrev, connectNext, connectParent,
    nextChildPrevCyclic, M.read, neighbors_live hp, hl, updNbr_live hb, updNbr_live hp', hg]

/-- `connect_triangle(Some(p), Some(a), None)`; `c` is the current first child of `p`. -/
theorem connect_pa {h : Hier} {p a c : Nat} (hpa : p ≠ a) (ha : h.live a) (hp : h.live p)
    (hc : h.live c) (hf : (h.get p).first = some c) :
    connectTriangle (some p) (some a) none h = .ok ()
      ((h.put a { h.get a with parent := some p, next := none }).put c
        { (h.put a { h.get a with parent := some p, next := none }).get c with
          prevCyc := some a }) := by
  have hg : (h.put a { h.get a with parent := some p, next := none }).get p = h.get p := by
    rw [get_put (live_lt ha), if_neg hpa]
  have hp' : (h.put a { h.get a with parent := some p, next := none }).live p := by
    rw [live_put (live_lt ha), if_neg hpa]; exact hp
  have hc' : (h.put a { h.get a with parent := some p, next := none }).live c := by
    rw [live_put (live_lt ha)]; split
    · exact ha
    · exact hc
  have hfc := firstChild_live hp'
  rw [hg, hf] at hfc
  simp [connectTriangle, connectPrev, connectNext, connectParent, updNbr_live ha, M.read,
    nbrOf_live hp', hg, hfc, updNbr_live hc']

end Hier
end Treena
