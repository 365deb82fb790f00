/-!
# Model of `src/nonmax.rs` and of the ID types of `src/dynamic/id.rs`

`k` is the width of the backing integer (8, 16, 32, 64, or the width of `usize`), `w` the width of
`usize`.  A `NonMaxUk` stores the bitwise complement of its value in a `NonZeroUk`.
-/

set_option autoImplicit false

namespace Treena

/-- `struct NonMaxUk(NonZeroUk)`, `nonmax.rs` 32-34. -/
structure NonMax (k : Nat) where
  raw : BitVec k
  nonzero : raw ≠ 0#k

namespace NonMax

/-- `NonZeroUk::new`. -/
def nonZeroNew {k : Nat} (b : BitVec k) : Option (NonMax k) :=
  if h : b ≠ 0#k then some ⟨b, h⟩ else none

/-- `<$tyint>::try_from(n)` from `usize`: fails when `n` does not fit. -/
def tryFrom (k : Nat) {w : Nat} (n : BitVec w) : Option (BitVec k) :=
  if n.toNat < 2 ^ k then some (BitVec.ofNat k n.toNat) else none

/-- `new`, `nonmax.rs` 42-47. -/
def new (k : Nat) {w : Nat} (n : BitVec w) : Option (NonMax k) :=
  (tryFrom k n).bind fun n => nonZeroNew (~~~n)

/-- `get`, `nonmax.rs` 52-56: `!self.0.get() as usize` (complement, then truncating cast). -/
def get (w : Nat) {k : Nat} (x : NonMax k) : BitVec w := (~~~x.raw).setWidth w

/-- `Ord::cmp`, `nonmax.rs` 65-70: compare the raw values, reversed. -/
def cmp {k : Nat} (a b : NonMax k) : Ordering := (compare a.raw.toNat b.raw.toNat).swap

/-- `PartialOrd::partial_cmp`, `nonmax.rs` 72-77: `Some(self.cmp(other))`. -/
def partialCmp {k : Nat} (a b : NonMax k) : Option Ordering := some (a.cmp b)

/-- `Default::default`, `nonmax.rs` 59-63. -/
def default (k : Nat) (w : Nat) : Option (NonMax k) := new k (0#w)

end NonMax

/-- `define_internal_id_type!`: `struct NodeIdUk(NonMaxUk)`, `id.rs` 91-131 with
`from_usize` (124-128) and `to_usize` (118-122), the two methods of the sealed trait (`id.rs` 140-160). -/
structure NodeIdU (k : Nat) where
  inner : NonMax k

namespace NodeIdU
def fromUsize (k : Nat) {w : Nat} (v : BitVec w) : Option (NodeIdU k) :=
  (NonMax.new k v).map NodeIdU.mk
def toUsize (w : Nat) {k : Nat} (x : NodeIdU k) : BitVec w := x.inner.get w

/-- The derived `Ord` of `NodeIdUk`, `id.rs` 105: that of the only field. -/
def cmp {k : Nat} (a b : NodeIdU k) : Ordering := a.inner.cmp b.inner

/-- The derived `PartialOrd` of `NodeIdUk`, `id.rs` 105: that of the only field. -/
def partialCmp {k : Nat} (a b : NodeIdU k) : Option Ordering := a.inner.partialCmp b.inner

/-- What the derived `Hash` of `NodeIdUk` (`id.rs` 105) and of `NonMaxUk` (`nonmax.rs` 32) feeds to the hasher: the
stored integer, one write of `k` bits. -/
def hashed {k : Nat} (x : NodeIdU k) : BitVec k := x.inner.raw

/-- The derived `PartialEq` of `NodeIdUk` (`id.rs` 105) and of `NonMaxUk` (`nonmax.rs` 31): equality of the
stored integers. -/
def eq {k : Nat} (a b : NodeIdU k) : Bool := a.inner.raw == b.inner.raw

/-- `Debug` of `NodeIdUk` (`id.rs` 109-113), which uses `Debug` of `NonMaxUk` (`nonmax.rs` 12-14, the decimal
digits of `get()`).  Width and precision flags of the formatter are not modelled.  `Display`, `Binary`, `Octal`,
`LowerHex` and `UpperHex` of `NonMaxUk` (`nonmax.rs` 79) are not modelled: the type is private to the crate and
nothing in the crate uses them. -/
def debug (w : Nat) {k : Nat} (x : NodeIdU k) : String :=
  "NodeId(" ++ Nat.repr (x.toUsize w).toNat ++ ")"
end NodeIdU

end Treena
