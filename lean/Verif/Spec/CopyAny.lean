import Verif.Spec.Clone
import Verif.Spec.Local
import Verif.Spec.Iter
/-!
# Specification: copies of anything

A depth-first traversal produces a list of openings and closings.  Read as brackets they make a tree: an opening makes a
node, as the last child of the node opened last and not closed since.
-/
set_option autoImplicit false

namespace Treena
variable {T : Type}

/-- `next` returns the items of the list one after the other. -/
def Yields {ι σ : Type} (next : σ → R (Option ι × σ)) : σ → List ι → σ → Prop
  | st, [], st' => st = st'
  | st, e :: E, st' => ∃ st1, next st = .ok (some e, st1) ∧ Yields next st1 E st'

/-- One bracket: the open nodes, innermost first, and for each node the node it is directly in.  Nodes are numbered. -/
def bracketStep (q : List Nat × List (Option Nat)) : Ev Nat → List Nat × List (Option Nat)
  | .opn _ => (q.2.length :: q.1, q.2 ++ [q.1.head?])
  | .cls _ => (q.1.tail, q.2)

/-- The open nodes and the parents of the nodes of a list of brackets. -/
def brackets (E : List (Ev Nat)) : List Nat × List (Option Nat) := E.foldl bracketStep ([], [])

/-- The nodes opened. -/
def openedBy (E : List (Ev Nat)) : List Nat := E.filterMap fun e => match e with
  | .opn x => some x
  | .cls _ => none

/-- `f'` is `f` with one more tree, of which `ds` are the data: the tree of the brackets `E`, with the IDs handed out in
order.  The shape `s` is that of the new tree alone. -/
structure NewTree (f f' : Forest T) (E : List (Ev Nat)) (ds : List T) (s : Shape) : Prop where
  valid : s.Valid
  count : ds.length = (openedBy E).length
  issued : f'.issued = f.issued + ds.length
  old : ∀ y, y < f.issued → f'.hier.neighbors y = f.hier.neighbors y ∧ f'.getData y = f.getData y
  alive : ∀ y, s.alive y = true ↔ f.issued ≤ y ∧ y < f'.issued
  parent : ∀ k, k < ds.length → s.parent (f.issued + k) = ((brackets E).2[k]?.join).map (f.issued + ·)
  root : ∀ y, s.alive y = true → (s.parent y = none ↔ y = f.issued)
  order : ∀ y, (s.kids y).Pairwise (· < ·)
  data : ∀ k, k < ds.length → f'.getData (f.issued + k) = ds[k]?
  live : ∀ y, s.alive y = true → f'.isAlive y = true
  parentId : ∀ y, s.alive y = true → f'.parentId y = .ok (s.parent y)
  nextSiblingId : ∀ y, s.alive y = true → f'.nextSiblingId y = .ok (s.next y)
  prevSiblingId : ∀ y, s.alive y = true → f'.prevSiblingId y = .ok (s.prev y)
  firstChildId : ∀ y, s.alive y = true → f'.firstChildId y = .ok (s.kids y).head?
  lastChildId : ∀ y, s.alive y = true → f'.lastChildId y = .ok (s.kids y).getLast?

/-- A copy that has been made so far with `n` IDs in use cannot go on, the traversal of `src` being in the state `st`: `next` of the
traversal panics or it has ended, or the node that it opens next has no datum that can be cloned, or there is no ID left. -/
def CannotGoOn (cap : Nat) (cl : T → Option T) (src : Forest T) (n : Nat) (st : Dft.St) : Prop :=
  (∃ e, Dft.next src.hier st = .error e) ∨ (∃ st', Dft.next src.hier st = .ok (none, st')) ∨
  ∃ x st', Dft.next src.hier st = .ok (some (.opn x), st') ∧ (cap ≤ n ∨ ∀ d, src.getData x = some d → cl d = none)

/-- What a copying call does that is given the node `x` of a forest `src`, in the forest `f`, with a callback in the
state `c`.  If the datum of `x` can be cloned and an ID is left, it makes the tree of the openings and closings `E` that
`depth_first_traverse` at `x` returns first, with clones of the data; the callback has been told about the nodes in order.  `Ok`
is returned with the root of the new tree, when all brackets are closed.  The call panics only if the callback does, if it cannot
go on, or (if `strict`) if the traversal has not ended when all brackets are closed. -/
def CopiesAny {S : Type} (cap : Nat) (strict : Bool) (cl : T → Option T) (hook : Forest.MapHook S) (src : Forest T) (x : Nat) (f : Forest T) (c : S)
    (r : Res (Forest T × S) Nat) : Prop :=
  ((∃ msg, r = .fail (.panic msg) (f, c)) ∧ (cap ≤ f.issued ∨ ∀ d, src.getData x = some d → cl d = none)) ∨
  ∃ f' E st ds s σ, Yields (Dft.next src.hier) (some (.opn x, .cls x)) E st ∧ E.head? = some (.opn x) ∧ NewTree f f' E ds s ∧
    (∀ (i y : Nat) (d : T), (openedBy E)[i]? = some y → ds[i]? = some d → ∃ d0, src.getData y = some d0 ∧ cl d0 = some d) ∧
    (feed (pairHook hook) c ((openedBy E).zip (List.range' f.issued (openedBy E).length))).1 = σ ∧
    ((r = .ok f.issued (f', σ) ∧ (brackets E).1 = [] ∧ (strict = true → ∃ st', Dft.next src.hier st = .ok (none, st')) ∧
        (feed (pairHook hook) c ((openedBy E).zip (List.range' f.issued (openedBy E).length))).2 = none) ∨
      ((∃ msg, r = .fail (.panic msg) (f', σ)) ∧
        ((feed (pairHook hook) c ((openedBy E).zip (List.range' f.issued (openedBy E).length))).2 ≠ none ∨
          ((brackets E).1 ≠ [] ∧ CannotGoOn cap cl src f'.issued st) ∨
          (strict = true ∧ (brackets E).1 = [] ∧ ∀ st', Dft.next src.hier st ≠ .ok (none, st')))))

end Treena
