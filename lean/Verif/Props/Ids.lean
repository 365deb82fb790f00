import Verif.Model.NonMax
import Verif.Props.SampleRun
/-!
# Properties of the node ID types

`k` is the width of the integer backing the ID type and `w` the width of `usize`; the theorems hold for all of
them, in particular for `NodeIdU8`, `NodeIdU16`, `NodeIdU32`, `NodeIdU64` and `NodeIdUsize` on 16, 32 and 64 bit
platforms.
-/

set_option autoImplicit false

namespace Treena

theorem NonMax.toNat_compl {k : Nat} (b : BitVec k) : (~~~b).toNat = 2 ^ k - 1 - b.toNat :=
  BitVec.toNat_not

theorem NonMax.new_eq {k w : Nat} (v : BitVec w) (h : v.toNat < 2 ^ k - 1) :
    ∃ x : NonMax k, NonMax.new k v = some x ∧ x.raw.toNat = 2 ^ k - 1 - v.toNat := by
  have hlt : v.toNat < 2 ^ k := by omega
  have hv : (~~~(BitVec.ofNat k v.toNat)).toNat = 2 ^ k - 1 - v.toNat := by
    rw [BitVec.toNat_not, BitVec.toNat_ofNat, Nat.mod_eq_of_lt hlt]
  have hne : ~~~(BitVec.ofNat k v.toNat) ≠ 0#k := by
    intro e
    rw [e] at hv; simp at hv; omega
  refine ⟨⟨_, hne⟩, ?_, hv⟩
  simp only [NonMax.new, NonMax.tryFrom, hlt, if_true, Option.bind_some, NonMax.nonZeroNew]
  exact dif_pos hne

theorem NonMax.new_none {k w : Nat} (v : BitVec w) (h : ¬ v.toNat < 2 ^ k - 1) :
    NonMax.new k v = none := by
  by_cases hlt : v.toNat < 2 ^ k
  · have hv : (~~~(BitVec.ofNat k v.toNat)) = 0#k := by
      apply BitVec.eq_of_toNat_eq
      rw [BitVec.toNat_not, BitVec.toNat_ofNat, Nat.mod_eq_of_lt hlt]
      simp; omega
    simp only [NonMax.new, NonMax.tryFrom, hlt, if_true, Option.bind_some, NonMax.nonZeroNew]
    exact dif_neg fun h => h hv
  · simp [NonMax.new, NonMax.tryFrom, hlt]

/-- `to_usize` of an ID whose stored integer is the complement of a `usize`. -/
theorem NodeIdU.toUsize_of_raw {k w : Nat} (x : NodeIdU k) (n : Nat) (hn : n < 2 ^ w) (hk : n < 2 ^ k)
    (h : x.inner.raw.toNat = 2 ^ k - 1 - n) : (x.toUsize w).toNat = n := by
  unfold NodeIdU.toUsize NonMax.get
  rw [BitVec.toNat_setWidth, BitVec.toNat_not, h]
  have : 2 ^ k - 1 - (2 ^ k - 1 - n) = n := by omega
  rw [this, Nat.mod_eq_of_lt hn]

/-- **C01**, conversion: `from_usize(v)` succeeds exactly for `v < 2^k - 1` (so there are `2^k - 1` IDs, one more
than the documented `MAX - 1`), and `to_usize` then gives `v` back. -/
theorem C01_conversion (k w : Nat) (v : BitVec w) :
    ((NodeIdU.fromUsize k v).isSome = true ↔ v.toNat < 2 ^ k - 1) ∧
    (∀ x, NodeIdU.fromUsize k v = some x → x.toUsize w = v) := by
  by_cases h : v.toNat < 2 ^ k - 1
  · obtain ⟨y, hy, hr⟩ := NonMax.new_eq (k := k) v h
    refine ⟨by simp [NodeIdU.fromUsize, hy, h], fun x hx => ?_⟩
    simp only [NodeIdU.fromUsize, hy, Option.map_some, Option.some.injEq] at hx
    subst hx
    apply BitVec.eq_of_toNat_eq
    exact NodeIdU.toUsize_of_raw ⟨y⟩ _ v.isLt (by omega) hr
  · have hn := NonMax.new_none (k := k) v h
    exact ⟨by simp [NodeIdU.fromUsize, hn, h], fun x hx => by simp [NodeIdU.fromUsize, hn] at hx⟩

/-- **C01**, the IDs are exactly the converted integers: every ID that fits into a `usize` comes from its own
`to_usize`. -/
theorem C01_conversion_back (k w : Nat) (hw : k ≤ w) (x : NodeIdU k) :
    NodeIdU.fromUsize k (x.toUsize w) = some x := by
  have hx : (x.toUsize w).toNat = 2 ^ k - 1 - x.inner.raw.toNat := by
    unfold NodeIdU.toUsize NonMax.get
    rw [BitVec.toNat_setWidth, BitVec.toNat_not, Nat.mod_eq_of_lt]
    have h1 := Nat.pow_le_pow_right (n := 2) (by omega) hw
    have h2 := x.inner.raw.isLt
    omega
  have hnz : x.inner.raw.toNat ≠ 0 := fun e => x.inner.nonzero (BitVec.eq_of_toNat_eq (by simpa using e))
  have hlt := x.inner.raw.isLt
  obtain ⟨y, hy, hr⟩ := NonMax.new_eq (k := k) (x.toUsize w) (by omega)
  have : y = x.inner := by
    have e : y.raw = x.inner.raw := BitVec.eq_of_toNat_eq (by rw [hr, hx]; omega)
    cases y; cases hx' : x.inner; simp_all
  simp [NodeIdU.fromUsize, hy, this]

/-- **C01**, equality and ordering: for IDs made from `v` and `u`, `==` is equality of the integers, `cmp` is the
numeric comparison (`partial_cmp` the same, never `None`), two IDs feed the same to a hasher exactly when they are
equal, and `Debug` prints the integer. -/
theorem C01_order (k w : Nat) (v u : BitVec w) (x y : NodeIdU k)
    (hx : NodeIdU.fromUsize k v = some x) (hy : NodeIdU.fromUsize k u = some y) :
    (x.eq y = true ↔ v = u) ∧ x.cmp y = compare v.toNat u.toNat ∧
    x.partialCmp y = some (compare v.toNat u.toNat) ∧ (x.hashed = y.hashed ↔ v = u) ∧
    x.debug w = "NodeId(" ++ Nat.repr v.toNat ++ ")" := by
  have hv := ((C01_conversion k w v).1).1 (by rw [hx]; rfl)
  have hu := ((C01_conversion k w u).1).1 (by rw [hy]; rfl)
  obtain ⟨a, ha, hra⟩ := NonMax.new_eq (k := k) v hv
  obtain ⟨b, hb, hrb⟩ := NonMax.new_eq (k := k) u hu
  simp only [NodeIdU.fromUsize, ha, hb, Option.map_some, Option.some.injEq] at hx hy
  suffices h : (x.eq y = true ↔ v = u) ∧ x.cmp y = compare v.toNat u.toNat ∧
      x.debug w = "NodeId(" ++ Nat.repr v.toNat ++ ")" from
    ⟨h.1, h.2.1, by rw [← h.2.1]; rfl, by rw [← h.1]; simp [NodeIdU.eq, NodeIdU.hashed], h.2.2⟩
  refine ⟨?_, ?_, ?_⟩
  · subst hx; subst hy
    simp only [NodeIdU.eq, beq_iff_eq]
    constructor
    · intro e
      rw [e] at hra
      exact BitVec.eq_of_toNat_eq (by omega)
    · rintro rfl
      exact BitVec.eq_of_toNat_eq (by omega)
  · subst hx; subst hy
    simp only [NodeIdU.cmp, NonMax.cmp, hra, hrb]
    rcases Nat.lt_trichotomy v.toNat u.toNat with h | h | h
    · rw [Nat.compare_eq_lt.2 h, Nat.compare_eq_gt.2 (by omega)]; rfl
    · rw [Nat.compare_eq_eq.2 h, Nat.compare_eq_eq.2 (by omega)]; rfl
    · rw [Nat.compare_eq_gt.2 h, Nat.compare_eq_lt.2 (by omega)]; rfl
  · subst hx
    unfold NodeIdU.debug
    rw [(C01_conversion k w v).2 ⟨a⟩ (by simp [NodeIdU.fromUsize, ha])]

/-- **C01**, the `expect` in `Default` never fires. -/
theorem C01_default (k w : Nat) (hk : 0 < k) : (NonMax.default k w).isSome = true := by
  have : (0#w).toNat < 2 ^ k - 1 := by
    have := Nat.pow_le_pow_right (n := 2) (by omega) hk
    simp; omega
  obtain ⟨a, ha, _⟩ := NonMax.new_eq (k := k) (0#w) this
  simp [NonMax.default, ha]

/-- 254 is an ID of `NodeIdU8`, 255 and 256 are not; with a `usize` of 32 bits all integers
are IDs of `NodeIdU64`. -/
example : (NodeIdU.fromUsize 8 254#64).isSome = true ∧ (NodeIdU.fromUsize 8 255#64).isSome = false ∧
    (NodeIdU.fromUsize 8 256#64).isSome = false ∧ (NodeIdU.fromUsize 64 (BitVec.ofNat 32 (2 ^ 32 - 1))).isSome = true := by
  refine ⟨?_, ?_, ?_, ?_⟩
  · exact ((C01_conversion 8 64 _).1).2 (by decide)
  · rw [← Bool.not_eq_true, (C01_conversion 8 64 _).1]; decide
  · rw [← Bool.not_eq_true, (C01_conversion 8 64 _).1]; decide
  · exact ((C01_conversion 64 32 _).1).2 (by decide)

/-! ### The hypotheses can be met

Each example applies the theorem named in its comment to a concrete forest. -/

section
/-- `C01_conversion_back`: 8-bit IDs. -/
example (x : NodeIdU 8) := C01_conversion_back 8 64 (by decide) x

/-- `C01_default`: 8-bit IDs. -/
example := C01_default 8 64 (by decide)

/-- `C01_order`: two 8-bit IDs. -/
example : ∃ x y : NodeIdU 8, NodeIdU.fromUsize 8 (3 : BitVec 64) = some x ∧ NodeIdU.fromUsize 8 (5 : BitVec 64) = some y ∧
    x.cmp y = .lt :=
  ⟨_, _, rfl, rfl, (C01_order 8 64 3 5 _ _ rfl rfl).2.1⟩

end

end Treena
