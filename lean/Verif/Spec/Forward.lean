import Verif.Model.Forward
import Verif.Model.Expr
import Verif.Spec.RealScalar

/-!
# The real functions computed by forward-mode programs
-/

open scoped Real

namespace FastAD

noncomputable section

/-- the mathematical functions -/
def FUn.real : FUn → ℝ → ℝ
  | .neg, x => -x
  | .sin, x => Real.sin x
  | .cos, x => Real.cos x
  | .tan, x => Real.tan x
  | .asin, x => Real.arcsin x
  | .acos, x => Real.arccos x
  | .atan, x => Real.arctan x
  | .exp, x => Real.exp x
  | .log, x => Real.log x
  | .sqrt, x => Real.sqrt x
  | .erf, x => realErf x

/-- the mathematical operations -/
def FBin.real : FBin → ℝ → ℝ → ℝ
  | .add, x, y => x + y
  | .sub, x, y => x - y
  | .mul, x, y => x * y
  | .div, x, y => x / y

/-- where the function is differentiable -/
def FUn.DomAt : FUn → ℝ → Prop
  | .tan, x => Real.cos x ≠ 0
  | .asin, x => -1 < x ∧ x < 1
  | .acos, x => -1 < x ∧ x < 1
  | .log, x => 0 < x
  | .sqrt, x => 0 < x
  | _, _ => True

/-- value of an expression -/
def FExpr.real : FExpr ℝ → (ℕ → ℝ) → ℝ
  | .var i, ρ => ρ i
  | .lit c, _ => c
  | .un op e, ρ => op.real (e.real ρ)
  | .bin op l r, ρ => op.real (l.real ρ) (r.real ρ)

/-- all functions are applied inside their open domains -/
def FExpr.Dom : FExpr ℝ → (ℕ → ℝ) → Prop
  | .var _, _ => True
  | .lit _, _ => True
  | .un op e, ρ => e.Dom ρ ∧ op.DomAt (e.real ρ)
  | .bin op l r, ρ => l.Dom ρ ∧ r.Dom ρ ∧ (op = .div → r.real ρ ≠ 0)

/-- the effect of a statement on real variables -/
def FStmt.real : FStmt ℝ → (ℕ → ℝ) → ℕ → ℝ
  | .assign i e, ρ => Function.update ρ i (e.real ρ)
  | .addAssign i e, ρ => Function.update ρ i (ρ i + e.real ρ)

/-- the expression of a statement -/
def FStmt.expr : FStmt ℝ → FExpr ℝ
  | .assign _ e => e
  | .addAssign _ e => e

/-- the effect of a program on real variables -/
def realForward : List (FStmt ℝ) → (ℕ → ℝ) → ℕ → ℝ
  | [], ρ => ρ
  | st :: p, ρ => realForward p (st.real ρ)

/-- all functions of the program are applied inside their open domains -/
def ForwardDom : List (FStmt ℝ) → (ℕ → ℝ) → Prop
  | [], _ => True
  | st :: p, ρ => st.expr.Dom ρ ∧ ForwardDom p (st.real ρ)

/-- the derivative of a real expression by the rules of calculus, in the direction `u` -/
def FExpr.tangent : FExpr ℝ → (ρ u : ℕ → ℝ) → ℝ
  | e, ρ, u => deriv (fun t => e.real fun i => ρ i + t * u i) 0

/-- every `erf` is applied to something of tangent 1 (in particular: no `erf` at all) -/
def FExpr.ErfOk : FExpr ℝ → (ℕ → ℝ) → (ℕ → ℝ) → Prop
  | .var _, _, _ => True
  | .lit _, _, _ => True
  | .un op e, ρ, u => e.ErfOk ρ u ∧ (op = .erf → e.tangent ρ u = 1)
  | .bin _ l r, ρ, u => l.ErfOk ρ u ∧ r.ErfOk ρ u

/-- the same, the tangent being the one computed -/
def FExpr.ErfOk' : FExpr ℝ → (ℕ → Dual ℝ) → Prop
  | .var _, _ => True
  | .lit _, _ => True
  | .un op e, d => e.ErfOk' d ∧ (op = .erf → (e.eval d).df = 1)
  | .bin _ l r, d => l.ErfOk' d ∧ r.ErfOk' d

/-- the same for all statements of a program, the tangents being transported through it -/
def ForwardErfOk : List (FStmt ℝ) → (ℕ → ℝ) → (ℕ → ℝ) → Prop
  | [], _, _ => True
  | st :: p, ρ, u => st.expr.ErfOk ρ u ∧ ForwardErfOk p (st.real ρ) fun i => deriv (fun t => st.real (fun j => ρ j + t * u j) i) 0

/-- the reverse-mode operator of the same name -/
def FUn.rev : FUn → UOp
  | .neg => .neg | .sin => .sin | .cos => .cos | .tan => .tan | .asin => .asin | .acos => .acos | .atan => .atan
  | .exp => .exp | .log => .log | .sqrt => .sqrt | .erf => .erf

/-- the reverse-mode operator of the same name -/
def FBin.rev : FBin → BOp
  | .add => .add | .sub => .sub | .mul => .mul | .div => .div

/-- the same expression written in reverse mode, object `i` being the scalar variable with value cell `i` and adjoint cell `i` -/
def FExpr.rev : FExpr ℝ → Expr ℝ
  | .var i => .var ⟨.scl, some i, some i⟩
  | .lit c => .const .scl fun _ => c
  | .un op e => .mkUnary op.rev e.rev
  | .bin op l r => .mkBinary op.rev l.rev r.rev

/-- objects mentioned -/
def FExpr.vars : FExpr ℝ → Finset ℕ
  | .var i => {i}
  | .lit _ => ∅
  | .un _ e => e.vars
  | .bin _ l r => l.vars ∪ r.vars

end

end FastAD
