import Verif.Spec.Build
import Verif.Spec.LocalRelease
/-!
# Specification: going on after damage

`Build.run` and `Build.taint` are histories and their tainted nodes (`Spec/Local.lean`, `Spec/LocalRelease.lean`) in the two
builds.
-/
set_option autoImplicit false

namespace Treena
variable {T : Type}

/-- The node given to make an iterator. -/
def IterReq.node : IterReq → Nat
  | .dft x => x
  | .shallow x _ => x
  | .bft x => x
  | .abft x => x
  | .ancestors x _ => x
  | .row x _ => x

/-- The node IDs given to a call of a client that keeps iterators. -/
def PoolReq.ids : PoolReq T → List Nat
  | .call q => q.ids
  | .start q => [q.node]
  | _ => []

namespace Build

/-- The forest after a history. -/
def run (cap : Nat) (f : Forest T) (ops : List (Op T)) : Build → Forest T
  | .debug => Op.run cap f ops
  | .release => Release.run cap f ops

/-- The nodes tainted by a history that starts with the empty forest. -/
noncomputable def taint (cap : Nat) (ops : List (Op T)) : Build → Nat → Prop
  | .debug => Treena.taint cap Forest.new (fun _ => False) ops
  | .release => Release.taint cap Forest.new (fun _ => False) ops

end Build
end Treena
