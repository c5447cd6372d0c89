import Verif.Model.Eval

/-!
# Expressions whose backward pass reads the value of an `if_else`
-/

namespace FastAD

variable {α : Type}

/-- an `if_else` node, as `ad::if_else` makes it: its own view is bound to nothing; its value has at least one coefficient -/
def Expr.Unstored : Expr α → Prop
  | .ifElse _ _ _ w => w.val = none ∧ w.size ≠ 0
  | _ => False

/-- one of the expressions is such an `if_else` -/
def Exprs.SomeUnstored : Exprs α → Prop
  | .nil => False
  | .cons e es => e.Unstored ∨ es.SomeUnstored

mutual
/-- Some node that the backward pass always reaches looks at the value of an operand that is an `if_else`: functions and products need the value of their operands, and a scalar operand is looked at even if its value is not needed.
(Nodes inside both branches of an `if_else` are reached; nodes below comparisons, in conditions, and below log-densities, `norm` and determinants are not counted.) -/
def Expr.ReadsIf : Expr α → Prop
  | .var _ | .const _ _ | .cview _ _ => False
  | .unary op e _ => (e.Unstored ∧ (op.usesX = true ∨ e.shape.isScl = true)) ∨ e.ReadsIf
  | .binary op l r _ => op.isComparison = false ∧
      ((l.Unstored ∧ (op.usesL = true ∨ l.shape.isScl = true)) ∨ (r.Unstored ∧ (op.usesR = true ∨ r.shape.isScl = true)) ∨ l.ReadsIf ∨ r.ReadsIf)
  | .pow n e _ => (e.Unstored ∧ n ≠ 0 ∧ n ≠ 1) ∨ e.ReadsIf
  | .prodElem e _ _ => e.Unstored ∨ e.ReadsIf
  | .transpose e _ => e.ReadsIf
  | .dot l r _ => l.Unstored ∨ r.Unstored ∨ l.ReadsIf ∨ r.ReadsIf
  | .sumIter es _ => es.SomeReadsIf
  | .prodIter es _ => es.SomeUnstored ∨ es.SomeReadsIf
  | .reduce op es _ => (op.usesX = true ∧ es.SomeUnstored) ∨ (op = .sum ∧ es.length = 1 ∧ es.SomeReadsIf)
  | .ifElse c a b _ => c.Unstored ∨ (a.ReadsIf ∧ b.ReadsIf)
  | .eq _ e _ => e.ReadsIf
  | .opEq _ _ e _ _ => e.Unstored ∨ e.ReadsIf
  | .glue l r _ => l.ReadsIf ∨ r.ReadsIf
  | .forEach es _ => es.SomeReadsIf
/-- the same for one of several expressions -/
def Exprs.SomeReadsIf : Exprs α → Prop
  | .nil => False
  | .cons e es => e.ReadsIf ∨ es.SomeReadsIf
end

end FastAD
