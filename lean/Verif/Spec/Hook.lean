/-!
# Specification: stateful callbacks

A callback has a captured state `S`; `.error s` means that it panicked, leaving the state `s`.
-/

set_option autoImplicit false

namespace Treena

/-- Call the callback on the items one after the other, up to the first panic.  Result: the final
captured state, and `some k` if the call on item number `k` (from 0) panicked. -/
def feed {S ι : Type} (hook : S → ι → Except S S) : S → List ι → S × Option Nat
  | s, [] => (s, none)
  | s, i :: is =>
    match hook s i with
    | .error s' => (s', some 0)
    | .ok s' => ((feed hook s' is).1, (feed hook s' is).2.map (· + 1))

end Treena
