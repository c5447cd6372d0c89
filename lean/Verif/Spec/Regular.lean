import Verif.Spec.Denote
import Mathlib.Analysis.Normed.Group.Basic
import Mathlib.Analysis.Normed.Module.Basic

/-!
# Points at which an expression is differentiable

The store of values is given as a function `ρ x` of a parameter `x` of a normed space (the real line for partial and
directional derivatives).
-/

open scoped Topology

namespace FastAD

noncomputable section

/-- the open domain of a unary function -/
def UOp.DomAt : UOp → ℝ → Prop
  | .tan, x => Real.cos x ≠ 0
  | .asin, x => -1 < x ∧ x < 1
  | .acos, x => -1 < x ∧ x < 1
  | .log, x => 0 < x
  | .sqrt, x => 0 < x
  | _, _ => True

/-- the store with every value moved by `t` times the direction `u` -/
def shift (m u : ℕ → ℝ) (t : ℝ) : ℕ → ℝ := fun c => m c + t * u c

variable {E : Type} [NormedAddCommGroup E] [NormedSpace ℝ E] [HasInf ℝ] [LinAlg ℝ]
set_option linter.unusedSectionVars false

/-- Precondition of the one-operand reductions: for the LU policy the matrix is non-singular; for LDLT and LLT the operand stays symmetric
near `x0`, the decomposition succeeds near `x0`, and the matrix is non-singular. -/
def RedOp.RegAt (op : RedOp) (sh : Shape) (X : E → ℕ → ℝ) (x0 : E) : Prop :=
  match op with
  | .sum | .norm => True
  | .det .lu | .logDet .lu => (toMat sh.rows (X x0)).det ≠ 0
  | .det .ldlt | .logDet .ldlt => (toMat sh.rows (X x0)).det ≠ 0 ∧
      ∀ᶠ x in 𝓝 x0, LinAlg.ldltOk sh.rows (trunc sh.size (X x)) = true ∧ (toMat sh.rows (X x)).IsSymm
  | .det .llt | .logDet .llt =>
      ∀ᶠ x in 𝓝 x0, LinAlg.lltOk sh.rows (trunc sh.size (X x)) = true ∧ (toMat sh.rows (X x)).IsSymm
  | .stat _ _ => True

/-- Precondition of the log-densities: matrix arguments stay symmetric near `x0`; the arguments are valid at `x0` (or invalid in a neighbourhood of `x0`) and not at a corner
of the clipping of probabilities; discrete outcomes do not vary.  Excluded are the Cauchy nodes which use their seed twice, and Bernoulli nodes with vector probabilities
at impossible outcomes, which hand out seeds although the value is constantly -infinity (`C25_vector_not_silent`). -/
def StatOp.RegAt (o : StatOp) (n : ℕ) (V : E → Args ℝ) (x0 : E) : Prop :=
  o.seedsTwice = false ∧ (∀ᶠ x in 𝓝 x0, o.Adm n (V x)) ∧
    ((o.valid n (V x0) ∧ o.Smooth n (V x0)) ∨ (o ≠ .bernoulliVV ∧ ∀ᶠ x in 𝓝 x0, ¬ o.valid n (V x))) ∧
    (o.discrete = true → ∀ᶠ x in 𝓝 x0, ∀ i < (o.shape n .x).size, (V x).x i = (V x0).x i)

/-- Precondition of a reduction of an operand list; only log-densities have more than one operand. -/
def RedOp.RegsAt (op : RedOp) (X : E → List (Shape × (ℕ → ℝ))) (x0 : E) : Prop :=
  ∀ o k, op = .stat o k → ∃ (n : ℕ) (V : E → Args ℝ), (∀ x, statArgs (X x) = some (n, V x)) ∧ o.RegAt n V x0

open Classical in
mutual
/-- The expression is regular at `x0`: every operation is applied to a point of its open domain, comparisons do not switch at
`x0`, and conditions do not change their truth value at `x0`. -/
def Expr.Reg : Expr ℝ → (E → ℕ → ℝ) → E → Prop
  | .unary op e _, ρ, x0 => e.Reg ρ x0 ∧ ∀ k < e.size, op.DomAt (e.denote (ρ x0) k)
  | .binary op l r w, ρ, x0 =>
      if op.isComparison then
        ∀ k < w.size, ∀ᶠ x in 𝓝 x0, (Expr.binary op l r w).denote (ρ x) k = (Expr.binary op l r w).denote (ρ x0) k
      else l.Reg ρ x0 ∧ r.Reg ρ x0 ∧
        (op = .div → ∀ k < r.size, r.denote (ρ x0) k ≠ 0)
  | .pow n e _, ρ, x0 => e.Reg ρ x0 ∧ (n < 0 → ∀ k < e.size, e.denote (ρ x0) k ≠ 0)
  | .prodElem e _ _, ρ, x0 => e.Reg ρ x0
  | .transpose e _, ρ, x0 => e.Reg ρ x0
  | .dot l r _, ρ, x0 => l.Reg ρ x0 ∧ r.Reg ρ x0
  | .sumIter es _, ρ, x0 => es.Regs ρ x0
  | .prodIter es _, ρ, x0 => es.Regs ρ x0
  | .reduce op es _, ρ, x0 => es.Regs ρ x0 ∧ (∀ e ∈ es.toList, op.RegAt e.shape (fun x => e.denote (ρ x)) x0) ∧ op.RegsAt (fun x => es.denotes (ρ x)) x0
  | .ifElse c a b _, ρ, x0 => (∀ᶠ x in 𝓝 x0, (c.denote (ρ x) 0 ≠ 0 ↔ c.denote (ρ x0) 0 ≠ 0)) ∧
      (if c.denote (ρ x0) 0 ≠ 0 then a.Reg ρ x0 else b.Reg ρ x0)
  | .glue l r _, ρ, x0 => l.RegS ρ x0 ∧ r.Reg (fun x => l.exec (ρ x)) x0
  | _, _, _ => True
/-- A sequence of assignments is regular: every right-hand side is, in the store in which it is evaluated. -/
def Expr.RegS : Expr ℝ → (E → ℕ → ℝ) → E → Prop
  | .eq _ e _, ρ, x0 => e.Reg ρ x0
  | .glue l r _, ρ, x0 => l.RegS ρ x0 ∧ r.RegS (fun x => l.exec (ρ x)) x0
  | _, _, _ => True
/-- the same for a list -/
def Exprs.Regs : Exprs ℝ → (E → ℕ → ℝ) → E → Prop
  | .nil, _, _ => True
  | .cons e es, ρ, x0 => e.Reg ρ x0 ∧ es.Regs ρ x0
end

open Classical in
mutual
/-- No negative power is taken of 0, and no Cauchy density with vector observations is used (at variable values `m`, on the evaluated branches). -/
def Expr.NoPole : Expr ℝ → (ℕ → ℝ) → Prop
  | .unary _ e _, m => e.NoPole m
  | .binary _ l r _, m => l.NoPole m ∧ r.NoPole m
  | .pow n e _, m => e.NoPole m ∧ (n < 0 → ∀ k < e.size, e.denote m k ≠ 0)
  | .prodElem e _ _, m => e.NoPole m
  | .transpose e _, m => e.NoPole m
  | .dot l r _, m => l.NoPole m ∧ r.NoPole m
  | .sumIter es _, m => es.NoPoles m
  | .prodIter es _, m => es.NoPoles m
  | .reduce op es _, m => es.NoPoles m ∧ ∀ o k, op = .stat o k → o.seedsTwice = false
  | .ifElse c a b _, m => if c.denote m 0 ≠ 0 then a.NoPole m else b.NoPole m
  | .glue l r _, m => l.NoPoleS m ∧ r.NoPole (l.exec m)
  | _, _ => True
/-- the same for a sequence of assignments -/
def Expr.NoPoleS : Expr ℝ → (ℕ → ℝ) → Prop
  | .eq _ e _, m => e.NoPole m
  | .glue l r _, m => l.NoPoleS m ∧ r.NoPoleS (l.exec m)
  | _, _ => True
/-- the same for a list -/
def Exprs.NoPoles : Exprs ℝ → (ℕ → ℝ) → Prop
  | .nil, _ => True
  | .cons e es, m => e.NoPole m ∧ es.NoPoles m
end

end

end FastAD
