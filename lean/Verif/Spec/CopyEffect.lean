import Verif.Spec.CopyAny
import Verif.Spec.CloneEffect
/-!
# Specification: copies of anything, with any `T::clone`

As `CopiesAny`, but `T::clone` may do anything to the state of the rest of the program, as the callback may.  The calls of the two
are prescribed by `replay`.
-/
set_option autoImplicit false

namespace Treena
variable {S T : Type}

/-- `f'` is `f` with the tree of the first nodes that are opened in `E`, as many as there are data in `ds`. -/
def Made (f f' : Forest T) (E : List (Ev Nat)) (ds : List T) : Prop :=
  (ds = [] ∧ f' = f) ∨ ∃ E0 s, E0 <+: E ∧ NewTree f f' E0 ds s

/-- What a copying call does that is given the node `x` of a forest `src`, in the forest `f`, the rest of the program being
in the state `σ`.  If `x` is dead, it panics at once.  Otherwise `depth_first_traverse` at `x` returns the openings and
closings `E` first, all nodes opened have data, and for these nodes in turn `T::clone` and the callback get called as prescribed by
`replay`, which also tells the data of the nodes that are made.  If one of these two panics or there is no ID left, the call ends
with that panic.  Otherwise `Ok` is returned with the root of the new tree when all brackets are closed; or the traversal
panics, ends early or opens a dead node; or (if `strict`) it has not ended when all brackets are closed. -/
def CopiesWith (cap : Nat) (strict : Bool) (cl : Forest.CloneFn S T) (hook : Forest.MapHook S) (src : Forest T) (x : Nat) (f : Forest T) (σ : S)
    (r : Res (Forest T × S) Nat) : Prop :=
  (src.getData x = none ∧ ∃ msg, r = .fail (.panic msg) (f, σ)) ∨
  ∃ f' E st, Yields (Dft.next src.hier) (some (.opn x, .cls x)) E st ∧ E.head? = some (.opn x) ∧ (∀ y ∈ openedBy E, src.getData y ≠ none) ∧
    Made f f' E (replay cap cl hook f.issued σ (withData src.getData (openedBy E))).1 ∧
    match (replay cap cl hook f.issued σ (withData src.getData (openedBy E))).2 with
    | (σ', some e) => r = .fail e (f', σ')
    | (σ', none) =>
      (r = .ok f.issued (f', σ') ∧ (brackets E).1 = [] ∧ (strict = true → ∃ st', Dft.next src.hier st = .ok (none, st'))) ∨
      ((∃ msg, r = .fail (.panic msg) (f', σ')) ∧
        (((brackets E).1 ≠ [] ∧ ((∃ e, Dft.next src.hier st = .error e) ∨ (∃ st', Dft.next src.hier st = .ok (none, st')) ∨
            ∃ y st', Dft.next src.hier st = .ok (some (.opn y), st') ∧ src.getData y = none)) ∨
          (strict = true ∧ (brackets E).1 = [] ∧ ∀ st', Dft.next src.hier st ≠ .ok (none, st'))))

end Treena
