import Verif.Spec.Program
import Verif.Spec.Needed

/-!
# Writing loops out

The expression in which every `for_each`, wherever it occurs, is replaced by its elements joined with `operator,`.
-/

namespace FastAD

variable {α : Type}

mutual
/-- the expression with every (non-empty) `for_each` written out -/
def Expr.writtenOut : Expr α → Expr α
  | .var v => .var v
  | .const sh c => .const sh c
  | .cview sh p => .cview sh p
  | .unary op e w => .unary op e.writtenOut w
  | .binary op l r w => .binary op l.writtenOut r.writtenOut w
  | .pow n e w => .pow n e.writtenOut w
  | .prodElem e w c => .prodElem e.writtenOut w c
  | .transpose e w => .transpose e.writtenOut w
  | .dot l r w => .dot l.writtenOut r.writtenOut w
  | .sumIter es w => .sumIter es.writtenOuts w
  | .prodIter es w => .prodIter es.writtenOuts w
  | .reduce op es w => .reduce op es.writtenOuts w
  | .ifElse c x y w => .ifElse c.writtenOut x.writtenOut y.writtenOut w
  | .eq v e w => .eq v e.writtenOut w
  | .opEq op v e w c => .opEq op v e.writtenOut w c
  | .glue l r w => .glue l.writtenOut r.writtenOut w
  | .forEach .nil w => .forEach .nil w
  | .forEach (.cons e es) _ => es.writtenOuts.glued e.writtenOut
/-- the same for lists -/
def Exprs.writtenOuts : Exprs α → Exprs α
  | .nil => .nil
  | .cons e es => .cons e.writtenOut es.writtenOuts
end

/-- is it a `for_each`? -/
def Expr.isLoop : Expr α → Bool
  | .forEach _ _ => true
  | _ => false

mutual
/-- Every `for_each` in the expression has elements that store their value (no variables, constants, `if_else`s or empty `for_each`s), the last one has the shape of the node (which takes it from the first), and none is the right-hand side
of an assignment (the cells of the root of a right-hand side are replaced by those of the placeholder, but `for_each` does not own the cells of its value). -/
def Expr.LoopsOk : Expr α → Prop
  | .var _ | .const _ _ | .cview _ _ => True
  | .unary _ e _ | .pow _ e _ | .prodElem e _ _ | .transpose e _ | .opEq _ _ e _ _ => e.LoopsOk
  | .binary _ l r _ | .dot l r _ | .glue l r _ => l.LoopsOk ∧ r.LoopsOk
  | .sumIter es _ | .prodIter es _ | .reduce _ es _ => es.LoopsOks
  | .ifElse c x y _ => c.LoopsOk ∧ x.LoopsOk ∧ y.LoopsOk
  | .eq _ e _ => e.LoopsOk ∧ e.isLoop = false
  | .forEach es w => es.LoopsOks ∧ (∀ x ∈ es.toList, x.StoresValue) ∧ ∀ x ∈ es.last, w.shape = x.shape
/-- the same for lists -/
def Exprs.LoopsOks : Exprs α → Prop
  | .nil => True
  | .cons e es => e.LoopsOk ∧ es.LoopsOks
end

end FastAD
