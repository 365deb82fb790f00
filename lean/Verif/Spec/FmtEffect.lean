import Verif.Model.FmtEffect
/-!
# Specification: watching the calls of the formatter

`watch` turns a formatter into one that keeps a diary: it notes the datum when it is called and again when it has
returned `Ok(())`.  `numbered` is a formatter whose texts depend on a state that moves with every call. -/

set_option autoImplicit false

namespace Treena
variable {S T C : Type}

/-- A sink beside which there is another piece of state. -/
def beside (put : S → Text → Except S S) (p : S × C) (t : Text) : Except (S × C) (S × C) :=
  match put p.1 t with
  | .ok σ => .ok (σ, p.2)
  | .error σ => .error (σ, p.2)

/-- The formatter does not panic, whatever the sink answers and whatever state it finds. -/
def EFmt.calm : EFmt S → Prop
  | .ret _ => True
  | .panic => False
  | .write _ k => ∀ b, (k b).calm
  | .act _ k => ∀ σ, (k σ).calm

/-- The formatter, noting `e` when it returns `Ok(())`. -/
def EFmt.noting {E : Type} (e : E) : EFmt S → EFmt (S × List E)
  | .ret true => .act (fun p => (p.1, p.2 ++ [e])) fun _ => .ret true
  | .ret false => .ret false
  | .panic => .panic
  | .write t k => .write t fun b => (k b).noting e
  | .act g k => .act (fun p => (g p.1, p.2)) fun p => (k p.1).noting e

/-- The formatter with a diary: `opn d` when it is called on `d`, `cls d` when it has returned `Ok(())`. -/
def watch (disp : T → EFmt S) (d : T) : EFmt (S × List (Ev T)) :=
  .act (fun p => (p.1, p.2 ++ [.opn d])) fun _ => (disp d).noting (.cls d)

/-- The formatter that in the state `c` writes the pieces `say c d` and leaves the state `nxt c d`. -/
def numbered (say : C → T → List Text) (nxt : C → T → C) (d : T) : EFmt (S × C) :=
  .act (fun p => (p.1, nxt p.2 d)) fun p => .ofFmt (.ofPieces true (say p.2 d))

/-- The diary of formatters called on the given data, one after the other. -/
def diary (D : List T) : List (Ev T) := D.flatMap fun d => [.opn d, .cls d]

/-- The state after formatters were called on the given data, starting from `c`. -/
def tally (nxt : C → T → C) (c : C) (D : List T) : C := D.foldl nxt c

/-- Forget the diary. -/
def Res.forget {α : Type} : Res (S × C) α → Res S α
  | .ok a p => .ok a p.1
  | .fail e p => .fail e p.1

end Treena
