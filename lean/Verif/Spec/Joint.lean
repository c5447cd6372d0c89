import Verif.Spec.Regular
import Verif.Spec.Leaves

/-!
# Sums of log-densities

A statistical model: a sum of log-densities whose operands are expressions, e.g. `normal_adj_log_pdf(y, dot(X, w), sigma) + normal_adj_log_pdf(w, 0., 1.)`.
-/

open scoped Topology

namespace FastAD

noncomputable section

/-- one log-density: its specialisation, the types of its operands (constant, variable or other expression), and the operands -/
structure Term where
  op : StatOp
  kinds : Kinds
  args : Exprs ℝ

/-- the node of a term -/
def Term.expr (t : Term) : Expr ℝ := .mkReduce (.stat t.op t.kinds) t.args

/-- the sum of one or more terms, written with `operator+` -/
def joint (t : Term) (ts : List Term) : Expr ℝ := ts.foldl (fun e t => .mkBinary .add e t.expr) t.expr

/-- operands of the right number, shapes and types, each of them a well-formed expression -/
def Term.Ok (t : Term) : Prop := t.args.WFs ∧ t.op.Fits t.kinds t.args

/-- number of observations -/
def Term.rows (t : Term) : ℕ :=
  match t.args.toList with
  | x :: _ => x.shape.rows
  | [] => 0

variable [HasInf ℝ] [LinAlg ℝ]

/-- the values of the operands when the variables have the values `m` -/
def Term.at (t : Term) (m : ℕ → ℝ) : Args ℝ :=
  match t.args.toList with
  | [x, a] => ⟨x.denote m, a.denote m, fun _ => 0⟩
  | [x, a, b] => ⟨x.denote m, a.denote m, b.denote m⟩
  | _ => ⟨fun _ => 0, fun _ => 0, fun _ => 0⟩

/-- the log-density of a term: -infinity for invalid parameters and impossible observations -/
def Term.logDensity (t : Term) (m : ℕ → ℝ) : ℝ := orNegInf (t.op.valid t.rows) (t.op.logp t.rows) (t.at m)

/-- the log-density of a model -/
def logJoint (ts : List Term) (m : ℕ → ℝ) : ℝ := (ts.map fun t => t.logDensity m).sum

variable {E : Type} [NormedAddCommGroup E] [NormedSpace ℝ E]

/-- The log-density of a term varies smoothly at `x0` when the variables have the values `ρ x`: the operands are regular, the parameters valid and the observations possible,
matrices stay symmetric, outcomes of Bernoulli trials do not vary and their probabilities are not 0 or 1.  Cauchy densities of vectors are excluded (`C23_false_for_vectors`). -/
structure Term.SmoothAt (t : Term) (ρ : E → ℕ → ℝ) (x0 : E) : Prop where
  regular : t.args.Regs ρ x0
  correct : t.op.seedsTwice = false
  symm : ∀ᶠ x in 𝓝 x0, t.op.Adm t.rows (t.at (ρ x))
  valid : t.op.valid t.rows (t.at (ρ x0))
  smooth : t.op.Smooth t.rows (t.at (ρ x0))
  discrete : t.op.discrete = true → ∀ᶠ x in 𝓝 x0, (t.at (ρ x)).x = (t.at (ρ x0)).x

end

end FastAD
