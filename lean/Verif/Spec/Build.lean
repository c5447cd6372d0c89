import Verif.Model.Build
import Verif.Spec.Leaves
import Verif.Spec.RealScalar

/-!
# Which source expressions constant folding must not change
-/

namespace FastAD

variable {α : Type}

/-- does the C++ type say that the expression is a constant? -/
def Src.isConst : Src α → Bool
  | .var _ => false
  | .const _ _ | .cview _ _ => true
  | .unary _ e | .pow _ e | .sum e | .prod e | .norm e | .det _ e | .logDet _ e | .transpose e => e.isConst
  | .binary _ l r | .dot l r => l.isConst && r.isConst
  | .ifElse c a b => c.isConst && a.isConst && b.isConst
  | .sumRange _ cst _ | .prodRange _ cst _ => cst

/-- a comparison or logical operation of constants, whose folded C++ type is `bool` -/
def Src.isTruth : Src α → Bool
  | .binary op l r => op.isComparison && (l.isConst && r.isConst)
  | _ => false

/-- the type `feval()` of the produced array expression returns: a stored matrix for a folded expression, see `Expr.retKind` -/
def Src.ret : Src α → Expr.RetKind
  | .var _ => .map
  | .const _ _ => .matrix
  | .cview _ _ => .constMap
  | .ifElse c a b => if c.isConst && a.isConst && b.isConst then .matrix else a.ret
  | e => if e.isConst then .matrix else .map

/-- Precondition of the decomposition policies, for an operand with `n` rows and values `x`. -/
def Decomp.Fits [LinAlg ℝ] (d : Decomp) (n : ℕ) (x : ℕ → ℝ) : Prop :=
  match d with
  | .lu => True
  | .ldlt => (toMat n x).IsSymm ∧ LinAlg.ldltOk n (trunc (n * n) x) = true
  | .llt => (toMat n x).IsSymm ∧ LinAlg.lltOk n (trunc (n * n) x) = true

mutual
/-- Requirements on a source expression, `m` being the values in memory:
* folded comparisons are used only where `bool` behaves like a number;
* a symmetric decomposition policy is applied to constants only if they satisfy its precondition;
* nothing constant is transposed and there are no ranges of constant matrices (neither compiles);
* after folding, the branches of an array `if_else` still deliver the same C++ type;
* the elements of a range have one static type;
* the product over an empty range of constant scalars does not occur. -/
def Src.Ok [HasInf ℝ] [LinAlg ℝ] (m : ℕ → ℝ) : Src ℝ → Prop
  | .var _ | .const _ _ | .cview _ _ => True
  | .unary _ e | .pow _ e | .sum e | .prod e | .norm e => e.Ok m ∧ e.isTruth = false
  | .binary op l r => l.Ok m ∧ r.Ok m ∧ Expr.binOk l.plain.shape r.plain.shape = true ∧
      (l.isTruth = true ∨ r.isTruth = true → l.plain.shape.isScl = true ∧ r.plain.shape.isScl = true ∧
        (op.isComparison = true ∨ (l.isConst && r.isConst) = false))
  | .det d e | .logDet d e => e.Ok m ∧ e.isTruth = false ∧
      (e.isConst = true → d.Fits e.plain.shape.rows (e.plain.denote m))
  | .transpose e => e.Ok m ∧ e.isConst = false
  | .dot l r => l.Ok m ∧ r.Ok m ∧ l.isTruth = false ∧ r.isTruth = false
  | .ifElse c a b => c.Ok m ∧ a.Ok m ∧ b.Ok m ∧ a.isTruth = false ∧ b.isTruth = false ∧
      ((c.isConst && a.isConst && b.isConst) = true ∨ a.plain.shape.isScl = true ∨ a.ret = b.ret)
  | .sumRange k cst es => es.Oks m k cst ∧ (cst = true → k ≠ .mat)
  | .prodRange k cst es => es.Oks m k cst ∧ (cst = true → k ≠ .mat) ∧
      (cst = true → k = .scl → ∃ e es', es = .cons e es')
/-- the same for the elements of a range with static shape tag `k`, whose type is a constant or not -/
def Srcs.Oks [HasInf ℝ] [LinAlg ℝ] (m : ℕ → ℝ) (k : Kind) (cst : Bool) : Srcs ℝ → Prop
  | .nil => True
  | .cons e es => (e.Ok m ∧ e.isTruth = false ∧ e.isConst = cst ∧ e.plain.shape.kind = k) ∧ es.Oks m k cst
end

end FastAD
