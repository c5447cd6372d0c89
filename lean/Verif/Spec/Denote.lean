import Verif.Spec.Density

/-!
# Meaning of expressions

`Expr.denote e m` is the mathematical value of the expression `e` when variables have the values stored in the heap `m`.  Expressions are pure, or contain blocks
`(w1 = e1, ..., wn = en, r)` as operands, whose value is that of `r` after the assignments (the store after a statement is `Expr.exec`).  It does not mention caches: the views stored in the internal nodes are ignored (except for the node's shape).
It is written with Mathlib's functions, finite sums and products, and matrices.
-/

open scoped Real

namespace FastAD

noncomputable section

/-- the mathematical functions denoted by the unary operators -/
def UOp.real : UOp → ℝ → ℝ
  | .neg, x => -x
  | .sin, x => Real.sin x
  | .cos, x => Real.cos x
  | .tan, x => Real.tan x
  | .asin, x => Real.arcsin x
  | .acos, x => Real.arccos x
  | .atan, x => Real.arctan x
  | .exp, x => Real.exp x
  | .log, x => Real.log x
  | .sqrt, x => Real.sqrt x
  | .erf, x => realErf x
  | .sigmoid, x => (1 + Real.exp (-x))⁻¹
  | .sinh, x => Real.sinh x
  | .cosh, x => Real.cosh x
  | .tanh, x => Real.tanh x

open Classical in
/-- truth value as a number -/
def ind (p : Prop) : ℝ := if p then 1 else 0

open Classical in
/-- the mathematical functions denoted by the binary operators (`scl`: both operands are scalars) -/
def BOp.real (op : BOp) (scl : Bool) (x y : ℝ) : ℝ :=
  match op with
  | .add => x + y
  | .sub => x - y
  | .mul => x * y
  | .div => x / y
  | .lt => ind (x < y)
  | .le => ind (x ≤ y)
  | .gt => ind (y < x)
  | .ge => ind (y ≤ x)
  | .eq => ind (x = y)
  | .ne => ind (x ≠ y)
  | .and => if scl then ind (x ≠ 0 ∧ y ≠ 0) else min x y
  | .or => if scl then ind (x ≠ 0 ∨ y ≠ 0) else max x y

open Classical in
/-- the `n`-th power; a negative power of 0 is a pole, whose value is whatever `inf` stands for -/
def realPow [HasInf ℝ] (n : ℤ) (x : ℝ) : ℝ := if n < 0 ∧ x = 0 then HasInf.inf else x ^ n

/-- the mathematical functions denoted by the reductions of one operand of shape `sh`.  Determinants are what Eigen's
decomposition delivers; that this is the determinant of the matrix (for LLT/LDLT: of the symmetric matrix given by the lower triangle)
is the contract `LawfulLinAlg`. -/
def RedOp.real [LinAlg ℝ] (op : RedOp) (sh : Shape) (x : ℕ → ℝ) : ℝ :=
  match op with
  | .sum => ∑ k ∈ Finset.range sh.size, x k
  | .norm => ∑ k ∈ Finset.range sh.size, x k ^ 2
  | .det .lu => LinAlg.det sh.rows (trunc sh.size x)
  | .det .ldlt => LinAlg.symDet sh.rows (trunc sh.size x)
  | .det .llt => LinAlg.lltDetL sh.rows (trunc sh.size x) ^ 2
  | .logDet .lu => Real.log |LinAlg.det sh.rows (trunc sh.size x)|
  | .logDet .ldlt => Real.log |LinAlg.symDet sh.rows (trunc sh.size x)|
  | .logDet .llt => 2 * Real.log |LinAlg.lltDetL sh.rows (trunc sh.size x)|
  | .stat _ _ => 0

/-- reduction of an operand list: one operand, or the operands of a log-density -/
def RedOp.reals [HasInf ℝ] [LinAlg ℝ] (op : RedOp) : List (Shape × (ℕ → ℝ)) → ℝ
  | [(sh, x)] => op.real sh x
  | l =>
    match op with
    | .stat o _ => (statArgs l).elim 0 fun p => o.real p.1 p.2
    | _ => 0

/-- the store after the cells of variable `v` have been assigned `f` -/
def assign {α : Type} (m : ℕ → α) (v : View) (f : ℕ → α) : ℕ → α :=
  fun c => if addr v.val ≤ c ∧ c < addr v.val + v.size then f (c - addr v.val) else m c

/-- the mathematical functions of the compound assignments -/
def AOp.real : AOp → ℝ → ℝ → ℝ
  | .add, x, y => x + y
  | .sub, x, y => x - y
  | .mul, x, y => x * y
  | .div, x, y => x / y

open Classical in
mutual
/-- value of coefficient `k` (column-major) of an expression, given the values `m` of all cells -/
def Expr.denote [HasInf ℝ] [LinAlg ℝ] : Expr ℝ → (ℕ → ℝ) → ℕ → ℝ
  | .var v, m, k => m (addr v.val + k)
  | .const _ c, _, k => c k
  | .cview _ p, m, k => m (addr p + k)
  | .unary op e _, m, k => op.real (e.denote m k)
  | .binary op l r w, m, k =>
      op.real w.shape.isScl (l.denote m (if l.shape.isScl then 0 else k))
        (r.denote m (if r.shape.isScl then 0 else k))
  | .pow n e _, m, k => realPow n (e.denote m k)
  | .prodElem e _ _, m, _ => ∏ j ∈ Finset.range e.size, e.denote m j
  | .transpose e w, m, k => e.denote m (k / w.shape.rows + (k % w.shape.rows) * w.shape.cols)
  | .dot l r _, m, k =>
      ∑ q ∈ Finset.range l.shape.cols,
        l.denote m (k % l.shape.rows + q * l.shape.rows) * r.denote m (q + k / l.shape.rows * l.shape.cols)
  | .sumIter es _, m, k => ((es.denotes m).map (fun x => x.2 k)).sum
  | .prodIter es _, m, k => ((es.denotes m).map (fun x => x.2 k)).prod
  | .reduce op es _, m, _ => op.reals (es.denotes m)
  | .ifElse c a b _, m, k => if c.denote m 0 ≠ 0 then a.denote m k else b.denote m k
  | .eq _ e _, m, k => e.denote m k
  | .opEq _ _ _ _ _, _, _ => 0
  | .glue l r _, m, k => r.denote (l.exec m) k
  | .forEach _ _, _, _ => 0
/-- values (with shapes) of a list of expressions -/
def Exprs.denotes [HasInf ℝ] [LinAlg ℝ] : Exprs ℝ → (ℕ → ℝ) → List (Shape × (ℕ → ℝ))
  | .nil, _ => []
  | .cons e es, m => (e.shape, e.denote m) :: es.denotes m
/-- the store after executing a program -/
def Expr.exec [HasInf ℝ] [LinAlg ℝ] : Expr ℝ → (ℕ → ℝ) → ℕ → ℝ
  | .eq v e _, m => assign m v (e.denote m)
  | .opEq op v e _ _, m =>
      assign m v (fun k => op.real (m (addr v.val + k)) (e.denote m (if e.shape.isScl then 0 else k)))
  | .glue l r _, m => r.exec (l.exec m)
  | .forEach es _, m => es.execs m
  | _, m => m
/-- the same for a sequence of programs -/
def Exprs.execs [HasInf ℝ] [LinAlg ℝ] : Exprs ℝ → (ℕ → ℝ) → ℕ → ℝ
  | .nil, m => m
  | .cons e es, m => es.execs (e.exec m)
end

/-- `if_else` node? (the only node whose own view is never bound, if_else.hpp:94-99) -/
def Expr.isIf {α : Type} : Expr α → Bool
  | .ifElse _ _ _ _ => true
  | _ => false

/-- shapes that really occur: scalars are 1×1 and vectors have one column -/
def Shape.Ok (s : Shape) : Prop :=
  match s.kind with
  | .scl => s.rows = 1 ∧ s.cols = 1
  | .vec => s.cols = 1
  | .mat => True

/-- shape requirements of the one-operand reductions: `norm` needs an array (norm.hpp:33), `det`/`log_det` a square matrix -/
def RedOp.ShapeOk (op : RedOp) (sh : Shape) : Prop :=
  match op with
  | .sum => True
  | .norm => sh.kind ≠ .scl
  | .det _ | .logDet _ => sh.kind = .mat ∧ sh.rows = sh.cols
  | .stat _ _ => False

/-- The operands of a log-density: number, shapes and constness as the node's type says, and none of them an `if_else` (they are read back through their views, already during
`feval`).  What a node computes from constants in its constructor goes stale when the data of a `ConstantView` are changed later (`C52_not_followed`): constant views are admitted where the node
reads them anew at every evaluation; elsewhere, a constant view of data that never change is represented by the constant with these data.  `n` is the number of rows of the first operand. -/
def StatOp.Fits {α : Type} (o : StatOp) (k : Kinds) (es : Exprs α) : Prop :=
  ∃ n, (o.shape n .x).rows = n ∧ es.toList.map Expr.shape = o.slots.map (o.shape n) ∧ es.toList.map Expr.argKind = o.slots.map k.get ∧
    (∀ e ∈ es.toList, e.isIf = false) ∧ (∀ p ∈ es.toList.zip o.slots, p.1.isConstView = true → o.keeps k p.2 = false) ∧ o.Sound k n

mutual
/-- Well-formed pure expressions: no assignment inside, shapes as required by the static and runtime assertions of
the node constructors, no `if_else` in a position whose value is read back through its (unbound) view during
`beval`, and the branches of an array `if_else` deliver the same C++ type. -/
def Expr.WF {α : Type} : Expr α → Prop
  | .var v => v.shape.Ok
  | .const sh _ => sh.Ok
  | .cview sh _ => sh.Ok
  | .unary op e w => e.WF ∧ w.shape = e.shape ∧ (e.isIf = true → op.usesX = false ∧ e.shape.isScl = false)
  | .binary op l r w => l.WF ∧ r.WF ∧ w.shape.Ok ∧ binDimsOk l.shape r.shape w.shape ∧
      (op.isComparison = false →
        (l.isIf = true → op.usesL = false ∧ l.shape.isScl = false) ∧
        (r.isIf = true → op.usesR = false ∧ r.shape.isScl = false))
  | .pow n e w => e.WF ∧ w.shape = e.shape ∧ (e.isIf = true → n = 0 ∨ n = 1)
  | .prodElem e w _ => e.WF ∧ w.shape = .scl ∧ e.isIf = false
  | .transpose e w => e.WF ∧ e.shape.kind ≠ .scl ∧ w.shape = .mat e.shape.cols e.shape.rows
  | .dot l r w => l.WF ∧ r.WF ∧ l.shape.kind = .mat ∧ r.shape.kind ≠ .scl ∧ l.shape.cols = r.shape.rows ∧
      w.shape = .ofDims r.shape.kind l.shape.rows r.shape.cols ∧ l.isIf = false ∧ r.isIf = false
  | .sumIter es w => es.WFs ∧ w.shape.Ok ∧ ∀ e ∈ es.toList, e.shape = w.shape
  | .prodIter es w => es.WFs ∧ w.shape.Ok ∧ ∀ e ∈ es.toList, e.shape = w.shape ∧ e.isIf = false
  | .reduce op es w => es.WFs ∧ w.shape = .scl ∧
      ((∃ e, es = .cons e .nil ∧ op.ShapeOk e.shape ∧ (e.isIf = true → op.usesX = false)) ∨ ∃ o k, op = .stat o k ∧ o.Fits k es)
  | .ifElse c a b w => c.WF ∧ a.WF ∧ b.WF ∧ c.shape.kind = .scl ∧ c.isIf = false ∧
      a.shape = w.shape ∧ b.shape = w.shape ∧ (w.shape.isScl = true ∨ a.retKind = b.retKind)
  | .eq _ _ _ => False
  | .opEq _ _ _ _ _ => False
  | .glue _ _ _ => False
  | .forEach _ _ => False
/-- all expressions of a list are well-formed -/
def Exprs.WFs {α : Type} : Exprs α → Prop
  | .nil => True
  | .cons e es => e.WF ∧ es.WFs
end

/-- Expressions that may stand on the right of `v = e`: not a variable (static_assert eq.hpp:50) and not a `prod` of an array (whose scratch
cells are lost when the root is rebound, see `C05_false_for_assigned_prod`).  A block is not considered either. -/
def Expr.Assignable {α : Type} : Expr α → Prop
  | .var _ => False
  | .prodElem _ _ _ => False
  | .glue _ _ _ => False
  | _ => True

/-- not a constant with a value of its own -/
def Expr.NotConst {α : Type} : Expr α → Prop
  | .const _ _ => False
  | _ => True

mutual
/-- Well-formed expressions with blocks: as `Expr.WF`, but `(w1 = e1, ..., wn = en, r)` is admitted everywhere as an operand; `r` has memory of its own (it is not a constant, and not an `if_else`). -/
def Expr.NWF {α : Type} : Expr α → Prop
  | .var v => v.shape.Ok
  | .const sh _ => sh.Ok
  | .cview sh _ => sh.Ok
  | .unary op e w => e.NWF ∧ w.shape = e.shape ∧ (e.isIf = true → op.usesX = false ∧ e.shape.isScl = false)
  | .binary op l r w => l.NWF ∧ r.NWF ∧ w.shape.Ok ∧ binDimsOk l.shape r.shape w.shape ∧
      (op.isComparison = false →
        (l.isIf = true → op.usesL = false ∧ l.shape.isScl = false) ∧
        (r.isIf = true → op.usesR = false ∧ r.shape.isScl = false))
  | .pow n e w => e.NWF ∧ w.shape = e.shape ∧ (e.isIf = true → n = 0 ∨ n = 1)
  | .prodElem e w _ => e.NWF ∧ w.shape = .scl ∧ e.isIf = false
  | .transpose e w => e.NWF ∧ e.shape.kind ≠ .scl ∧ w.shape = .mat e.shape.cols e.shape.rows
  | .dot l r w => l.NWF ∧ r.NWF ∧ l.shape.kind = .mat ∧ r.shape.kind ≠ .scl ∧ l.shape.cols = r.shape.rows ∧
      w.shape = .ofDims r.shape.kind l.shape.rows r.shape.cols ∧ l.isIf = false ∧ r.isIf = false
  | .sumIter es w => es.NWFs ∧ w.shape.Ok ∧ ∀ e ∈ es.toList, e.shape = w.shape
  | .prodIter es w => es.NWFs ∧ w.shape.Ok ∧ ∀ e ∈ es.toList, e.shape = w.shape ∧ e.isIf = false
  | .reduce op es w => es.NWFs ∧ w.shape = .scl ∧
      ((∃ e, es = .cons e .nil ∧ op.ShapeOk e.shape ∧ (e.isIf = true → op.usesX = false)) ∨ ∃ o k, op = .stat o k ∧ o.Fits k es)
  | .ifElse c a b w => c.NWF ∧ a.NWF ∧ b.NWF ∧ c.shape.kind = .scl ∧ c.isIf = false ∧
      a.shape = w.shape ∧ b.shape = w.shape ∧ (w.shape.isScl = true ∨ a.retKind = b.retKind)
  | .eq _ _ _ => False
  | .opEq _ _ _ _ _ => False
  | .glue l r w => l.NStm ∧ r.NWF ∧ w.shape = r.shape ∧ r.isIf = false ∧ r.NotConst
  | .forEach _ _ => False
/-- Well-formed sequences of placeholder assignments. -/
def Expr.NStm {α : Type} : Expr α → Prop
  | .eq v e w => e.NWF ∧ v.shape.Ok ∧ e.shape = v.shape ∧ w.shape = v.shape ∧ e.Assignable
  | .glue l r w => l.NStm ∧ r.NStm ∧ w.shape = r.shape
  | _ => False
/-- all expressions of a list are well-formed -/
def Exprs.NWFs {α : Type} : Exprs α → Prop
  | .nil => True
  | .cons e es => e.NWF ∧ es.NWFs
end

end

end FastAD
