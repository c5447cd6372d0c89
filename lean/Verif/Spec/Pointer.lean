import Verif.Model.Expr

/-!
# Which expressions are bound without undefined pointer arithmetic
-/

namespace FastAD

variable {α : Type}

mutual
/-- Does some node of the expression keep a value (of non-zero size) but no adjoint?  Comparisons, `pow<0>`, `pow<1>`, `prod` of the elements, `sum` of the elements, `norm`, `det`, `log_det`, log-densities. -/
def Expr.ValueOnly : Expr α → Prop
  | .var _ | .const _ _ | .cview _ _ => False
  | .unary _ e _ | .transpose e _ | .eq _ e _ | .opEq _ _ e _ _ => e.ValueOnly
  | .binary op l r w => (op.isComparison = true ∧ w.size ≠ 0) ∨ l.ValueOnly ∨ r.ValueOnly
  | .pow n e w => ((n = 0 ∨ n = 1) ∧ w.size ≠ 0) ∨ e.ValueOnly
  | .prodElem e w _ => w.size ≠ 0 ∨ e.ValueOnly
  | .dot l r _ | .glue l r _ => l.ValueOnly ∨ r.ValueOnly
  | .sumIter es _ | .prodIter es _ | .forEach es _ => es.ValueOnlys
  | .reduce _ es w => w.size ≠ 0 ∨ es.ValueOnlys
  | .ifElse c a b _ => c.ValueOnly ∨ a.ValueOnly ∨ b.ValueOnly
/-- the same for a list of expressions -/
def Exprs.ValueOnlys : Exprs α → Prop
  | .nil => False
  | .cons e es => e.ValueOnly ∨ es.ValueOnlys
end

/-- Does the root of the expression have storage for its value and its adjoint?  (`if_else` is not bound, constants have no adjoint.) -/
def Expr.HasStorage : Expr α → Prop
  | .const _ _ | .cview _ _ | .ifElse _ _ _ _ => False
  | .forEach es _ => es.length ≠ 0
  | _ => True

/-- the last of a list of expressions -/
def Exprs.lastHasStorage (n : ℕ) : Exprs α → Prop
  | .nil => True
  | .cons e .nil => e.HasStorage ∧ e.size = n
  | .cons _ (.cons e es) => Exprs.lastHasStorage n (.cons e es)

mutual
/-- No assignment `w = e`; compound assignments keep the shape of the variable; sequences end with something that is stored and has the shape of the sequence. -/
def Expr.Plain : Expr α → Prop
  | .var _ | .const _ _ | .cview _ _ => True
  | .unary _ e _ | .pow _ e _ | .prodElem e _ _ | .transpose e _ => e.Plain
  | .binary _ l r _ | .dot l r _ => l.Plain ∧ r.Plain
  | .sumIter es _ | .prodIter es _ | .reduce _ es _ => es.Plains
  | .ifElse c a b _ => c.Plain ∧ a.Plain ∧ b.Plain
  | .eq _ _ _ => False
  | .opEq _ v e w _ => w.shape = v.shape ∧ e.Plain
  | .glue l r w => l.Plain ∧ r.Plain ∧ r.HasStorage ∧ r.size = w.size
  | .forEach es w => es.Plains ∧ es.lastHasStorage w.size
/-- the same for a list of expressions -/
def Exprs.Plains : Exprs α → Prop
  | .nil => True
  | .cons e es => e.Plain ∧ es.Plains
end

end FastAD
