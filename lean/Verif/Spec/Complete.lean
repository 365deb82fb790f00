import Verif.Model.History
/-! Kinds of calls, for C73. -/
set_option autoImplicit false

namespace Treena
variable {T : Type}

/-- The calls `detach(x)` and `insert(x, LastChildOf(p))`. -/
def Op.isMove : Op T → Prop
  | .detach _ => True
  | .insert _ (.lastChildOf _) => True
  | _ => False

/-- The calls `create_root(d)`, `remove(x)`, `detach(x)` and `insert(x, LastChildOf(p))`. -/
def Op.isBasic : Op T → Prop
  | .createRoot _ => True
  | .remove _ => True
  | .detach _ => True
  | .insert _ (.lastChildOf _) => True
  | _ => False

end Treena
