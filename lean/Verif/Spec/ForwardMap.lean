import Verif.Model.Forward

/-!
# Forward programs over another scalar type
-/

namespace FastAD

variable {α β : Type}

/-- the same C++ expression with its literals converted by `f` -/
def FExpr.map (f : α → β) : FExpr α → FExpr β
  | .var i => .var i
  | .lit c => .lit (f c)
  | .un op e => .un op (e.map f)
  | .bin op l r => .bin op (l.map f) (r.map f)

/-- the same statement with its literals converted by `f` -/
def FStmt.map (f : α → β) : FStmt α → FStmt β
  | .assign i e => .assign i (e.map f)
  | .addAssign i e => .addAssign i (e.map f)

end FastAD
