import Verif.Model.Api

/-!
# Which expressions use all their cells

`NoIf`: no `if_else` in the expression, so that `feval` visits every node.  `AllBack`: `beval` visits every node that owns adjoint cells.
-/

namespace FastAD

variable {α : Type}

mutual
/-- no `if_else` (which evaluates only one of its branches) occurs in the expression -/
def Expr.NoIf : Expr α → Prop
  | .var _ | .const _ _ | .cview _ _ => True
  | .unary _ e _ | .pow _ e _ | .prodElem e _ _ | .transpose e _ | .eq _ e _ | .opEq _ _ e _ _ => e.NoIf
  | .binary _ l r _ | .dot l r _ | .glue l r _ => l.NoIf ∧ r.NoIf
  | .sumIter es _ | .prodIter es _ | .reduce _ es _ | .forEach es _ => es.NoIfs
  | .ifElse _ _ _ _ => False
/-- the same for a list -/
def Exprs.NoIfs : Exprs α → Prop
  | .nil => True
  | .cons e es => e.NoIf ∧ es.NoIfs
end

mutual
/-- Every node that owns adjoint cells is reached by the backward pass: no `if_else`; comparisons and the reductions that may return early (determinants, log-densities) have operands without
adjoint cells of their own; sums and products over a range are not empty. -/
def Expr.AllBack : Expr α → Prop
  | .var _ | .const _ _ | .cview _ _ => True
  | .unary _ e _ | .pow _ e _ | .prodElem e _ _ | .transpose e _ | .eq _ e _ | .opEq _ _ e _ _ => e.AllBack
  | .binary op l r _ => if op.isComparison then l.bindSize.adj = 0 ∧ r.bindSize.adj = 0 else l.AllBack ∧ r.AllBack
  | .dot l r _ | .glue l r _ => l.AllBack ∧ r.AllBack
  | .sumIter es _ | .prodIter es _ => es.length ≠ 0 ∧ es.AllBacks
  | .forEach es _ => es.AllBacks
  | .reduce op es _ => es.bindSize.adj = 0 ∨ ((op = .sum ∨ op = .norm) ∧ es.length = 1 ∧ es.AllBacks)
  | .ifElse _ _ _ _ => False
/-- the same for a list -/
def Exprs.AllBacks : Exprs α → Prop
  | .nil => True
  | .cons e es => e.AllBack ∧ es.AllBacks
end

/-- An expression that has to store its value in its own cache (or, for statements, in the location its view refers to): not a variable, not a constant, not an `if_else`, not an empty `for_each`. -/
def Expr.StoresValue : Expr α → Prop
  | .var _ | .const _ _ | .cview _ _ | .ifElse _ _ _ _ => False
  | .forEach es _ => es.length ≠ 0
  | _ => True

end FastAD
