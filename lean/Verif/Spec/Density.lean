import Verif.Spec.RealScalar
import Mathlib.Probability.Distributions.Gaussian.Real
import Mathlib.Probability.Distributions.Cauchy
import Mathlib.Probability.Distributions.Uniform

/-!
# Log-densities

The mathematical log-densities, taken from Mathlib's probability library where it has them.
-/

open scoped Real
open ProbabilityTheory

namespace FastAD

noncomputable section

/-- index into a parameter: scalars are repeated -/
def pidx (scalar : Bool) (i : ℕ) : ℕ := if scalar then 0 else i

/-- number of coefficients of a parameter -/
def pdim (scalar : Bool) (n : ℕ) : ℕ := if scalar then 1 else n

/-- Log-density of `n` independent normal observations without the constant `-n/2 log (2π)`. -/
def normalLog (sm ss : Bool) (n : ℕ) (v : Args ℝ) : ℝ :=
  ∑ i ∈ Finset.range n, (Real.log (gaussianPDFReal (v.a (pidx sm i)) (Real.toNNReal (v.b (pidx ss i) ^ 2)) (v.x i)) + Real.log √(2 * π))

/-- all scales are positive -/
def ScaleOk (ss : Bool) (n : ℕ) (v : Args ℝ) : Prop := ∀ i < pdim ss n, 0 < v.b i

/-- The density of the `n`-dimensional normal distribution with covariance matrix `S`, without the constant `(2π)^(-n/2)`. -/
def mvNormalKernel {n : ℕ} (S : Matrix (Fin n) (Fin n) ℝ) (m x : Fin n → ℝ) : ℝ :=
  Real.exp (-(1 / 2) * dotProduct (x - m) (S⁻¹.mulVec (x - m))) / √S.det

/-- log-density of the multivariate normal distribution -/
def mvNormalLog (sm : Bool) (n : ℕ) (v : Args ℝ) : ℝ :=
  Real.log (mvNormalKernel (toMat n v.b) (fun i => v.a (pidx sm i)) fun i => v.x i)

/-- Log-density of `n` independent Cauchy observations without the constant `-n log π`. -/
def cauchyLog (sl ss : Bool) (n : ℕ) (v : Args ℝ) : ℝ :=
  ∑ i ∈ Finset.range n, (Real.log (cauchyPDFReal (v.a (pidx sl i)) (Real.toNNReal (v.b (pidx ss i))) (v.x i)) + Real.log π)

/-- Log-density of `n` independent observations, uniform on `(min, max)`. -/
def uniformLog (sa sb : Bool) (n : ℕ) (v : Args ℝ) : ℝ :=
  ∑ i ∈ Finset.range n, Real.log (MeasureTheory.pdf.uniformPDF (Set.Ioo (v.a (pidx sa i)) (v.b (pidx sb i))) (v.x i)).toReal

/-- every observation lies strictly inside its interval -/
def InRange (sa sb : Bool) (n : ℕ) (v : Args ℝ) : Prop := ∀ i < n, v.a (pidx sa i) < v.x i ∧ v.x i < v.b (pidx sb i)

/-- the comparison of the observations with a vector bound has the same outcome for the operand values `v` and `w` -/
def ChecksAgree (sa sb : Bool) (n : ℕ) (v w : Args ℝ) : Prop :=
  (sa = false → ((∀ i < n, v.a i < v.x i) ↔ ∀ i < n, w.a i < w.x i)) ∧ (sb = false → ((∀ i < n, v.x i < v.b i) ↔ ∀ i < n, w.x i < w.b i))

open Classical in
/-- Probability of the outcome `x` of a Bernoulli trial with success probability `p`, clipped to [0, 1] (bernoulli.hpp:135 documents the clipping). -/
def bernoulliMass (x p : ℝ) : ℝ :=
  if x = 1 then max 0 (min p 1) else if x = 0 then 1 - max 0 (min p 1) else 0

/-- log-probability of `n` independent Bernoulli outcomes -/
def bernoulliLog (sp : Bool) (n : ℕ) (v : Args ℝ) : ℝ := ∑ i ∈ Finset.range n, Real.log (bernoulliMass (v.x i) (v.a (pidx sp i)))

/-- the outcomes have positive probability -/
def MassPos (sp : Bool) (n : ℕ) (v : Args ℝ) : Prop := ∀ i < n, 0 < bernoulliMass (v.x i) (v.a (pidx sp i))

/-- The density of the Wishart distribution with scale matrix `V` and `n` degrees of freedom, without its normalising constant
`2^(np/2) Γ_p(n/2)`. -/
def wishartKernel {p : ℕ} (X V : Matrix (Fin p) (Fin p) ℝ) (n : ℝ) : ℝ :=
  X.det ^ ((n - p - 1) / 2) * Real.exp (-(1 / 2) * (V⁻¹ * X).trace) / V.det ^ (n / 2)

/-- log-density of the Wishart distribution -/
def wishartLog (p : ℕ) (v : Args ℝ) : ℝ := Real.log (wishartKernel (toMat p v.x) (toMat p v.a) (v.b 0))

/-- positive definite arguments and enough degrees of freedom -/
def WishartOk (p : ℕ) (v : Args ℝ) : Prop := (toMat p v.x).PosDef ∧ (toMat p v.a).PosDef ∧ (p : ℝ) - 1 < v.b 0

open Classical in
/-- the value of a log-density: -infinity for invalid parameters or impossible observations -/
def orNegInf [HasInf ℝ] (valid : Args ℝ → Prop) (logp : Args ℝ → ℝ) (v : Args ℝ) : ℝ := if valid v then logp v else -HasInf.inf

/-- the scale matrix is symmetric -/
def SigmaSymm (n : ℕ) (v : Args ℝ) : Prop := (toMat n v.b).IsSymm

/-- observation and scale matrix are symmetric -/
def WishartSymm (p : ℕ) (v : Args ℝ) : Prop := (toMat p v.x).IsSymm ∧ (toMat p v.a).IsSymm

/-- the success probabilities are away from the corners of the clipping -/
def ProbSmooth (sp : Bool) (n : ℕ) (v : Args ℝ) : Prop := ∀ i < n, v.a (pidx sp i) ≠ 0 ∧ v.a (pidx sp i) ≠ 1

/-! ### The specialisations of the log-density nodes -/

/-- the operands of a log-density: Bernoulli has two, the others three -/
def StatOp.slots : StatOp → List Slot
  | .bernoulliSS | .bernoulliVS | .bernoulliVV => [.x, .a]
  | _ => [.x, .a, .b]

/-- scalar or vector -/
def parShape (scalar : Bool) (n : ℕ) : Shape := if scalar then .scl else .vec n

/-- shapes of the operands, `n` is the number of observations (or the dimension) -/
def StatOp.shape : StatOp → ℕ → Slot → Shape
  | .normalSSS, _, _ | .cauchySSS, _, _ | .uniformSSS, _, _ | .bernoulliSS, _, _ => .scl
  | .normalMat _, n, .b => .mat n n
  | .wishart, _, .b => .scl
  | .wishart, n, _ => .mat n n
  | _, n, .x => .vec n
  | .normalVSS, n, .a | .normalVSV, n, .a | .bernoulliVS, n, .a => parShape true n
  | .normalVVS, n, .a | .normalVVV, n, .a | .bernoulliVV, n, .a => parShape false n
  | .normalMat s, n, .a | .cauchyScl s, n, .a | .cauchyVec s, n, .a | .uniformVec s _, n, .a => parShape s n
  | .normalVSS, n, .b | .normalVVS, n, .b | .cauchyScl _, n, .b | .bernoulliVS, n, .b => parShape true n
  | .normalVSV, n, .b | .normalVVV, n, .b | .cauchyVec _, n, .b | .bernoulliVV, n, .b => parShape false n
  | .uniformVec _ s, n, .b => parShape s n

/-- valid parameters and possible observations -/
def StatOp.valid : StatOp → ℕ → Args ℝ → Prop
  | .normalSSS, _ | .cauchySSS, _ => ScaleOk true 1
  | .normalVSS, n | .normalVVS, n | .cauchyScl _, n => ScaleOk true n
  | .normalVSV, n | .normalVVV, n | .cauchyVec _, n => ScaleOk false n
  | .normalMat _, n => fun v => (toMat n v.b).PosDef
  | .uniformSSS, _ => InRange true true 1
  | .uniformVec sa sb, n => InRange sa sb n
  | .bernoulliSS, _ => MassPos true 1
  | .bernoulliVS, n => MassPos true n
  | .bernoulliVV, n => MassPos false n
  | .wishart, n => WishartOk n

/-- the log-density for valid arguments -/
def StatOp.logp : StatOp → ℕ → Args ℝ → ℝ
  | .normalSSS, _ => normalLog true true 1
  | .normalVSS, n => normalLog true true n
  | .normalVVS, n => normalLog false true n
  | .normalVSV, n => normalLog true false n
  | .normalVVV, n => normalLog false false n
  | .normalMat sm, n => mvNormalLog sm n
  | .cauchySSS, _ => cauchyLog true true 1
  | .cauchyScl sl, n => cauchyLog sl true n
  | .cauchyVec sl, n => cauchyLog sl false n
  | .uniformSSS, _ => uniformLog true true 1
  | .uniformVec sa sb, n => uniformLog sa sb n
  | .bernoulliSS, _ => bernoulliLog true 1
  | .bernoulliVS, n => bernoulliLog true n
  | .bernoulliVV, n => bernoulliLog false n
  | .wishart, n => wishartLog n

/-- The matrix arguments are symmetric (the other densities accept everything). -/
def StatOp.Adm : StatOp → ℕ → Args ℝ → Prop
  | .normalMat _, n => SigmaSymm n
  | .wishart, n => WishartSymm n
  | _, _ => fun _ => True

open Classical in
/-- **The mathematical value of a log-density**: `logp` for valid arguments, -infinity otherwise.  For the densities with matrix arguments it is written with what Eigen's
LLT decomposition of the (possibly non-symmetric) argument delivers, as for `det`; for symmetric arguments it is the log-density (`StatOp.real_eq`). -/
def StatOp.real [HasInf ℝ] [LinAlg ℝ] (o : StatOp) (n : ℕ) (v : Args ℝ) : ℝ :=
  match o with
  | .normalMat sm =>
      if LinAlg.lltOk n (trunc (n * n) v.b) = true then
        -(1 / 2) * dotProduct (fun i : Fin n => v.x i - v.a (pidx sm i))
            ((toMat n (LinAlg.symInv n (trunc (n * n) v.b))).mulVec fun i : Fin n => v.x i - v.a (pidx sm i)) -
          Real.log (LinAlg.lltDetL n (trunc (n * n) v.b))
      else -HasInf.inf
  | .wishart =>
      if LinAlg.lltOk n (trunc (n * n) v.x) = true ∧ LinAlg.lltOk n (trunc (n * n) v.a) = true ∧ (n : ℝ) - 1 < v.b 0 then
        (v.b 0 - n - 1) * Real.log (LinAlg.lltDetL n (trunc (n * n) v.x)) -
          1 / 2 * (toMat n v.x * toMat n (LinAlg.symInv n (trunc (n * n) v.a))).trace - v.b 0 * Real.log (LinAlg.lltDetL n (trunc (n * n) v.a))
      else -HasInf.inf
  | o => orNegInf (o.valid n) (o.logp n) v

/-- Combinations of operand types for which the node is correct: the others are the defects recorded in `C22_false_for_empty_data`, `C24_false_after_update`,
`C24_false_for_expression_bound`, `C24_false_for_empty_data` and `C26_false_for_constant_x`.  (That the number of degrees of freedom is a constant is asserted by wishart.hpp:25.) -/
def StatOp.Sound : StatOp → Kinds → ℕ → Prop
  | .normalVSS, k, n => k.x = .const → 0 < n
  | .uniformVec sa sb, k, n => ((sa || sb) = true → 0 < n) ∧
      (k.x = .const → sa ≠ sb → (sa = false → k.a = .const) ∧ (sb = false → k.b = .const))
  | .wishart, k, _ => k.b = .const ∧ (k.x = .const → k.a = .const)
  | _, _, _ => True

/-- **Which constant operands are read only once**, by the constructor of the node, which keeps what it computes from them (`log sigma`, mean and variance of the data, decompositions, the
outcome of the checks).  normal.hpp:136-138, 213-222 (case 2: also x), 333-335, 416-427 (case 4: x if sigma is constant, too), 527-529, 619-621, 717-719; uniform.hpp:132-135, 211-217, 305-311,
398-404, 491-494; bernoulli.hpp:121-123, 207-212, 307-312; wishart.hpp:152-157.  cauchy.hpp keeps nothing.  All other constants are read by every evaluation. -/
def StatOp.keeps : StatOp → Kinds → Slot → Bool
  | .normalSSS, k, .b | .normalVVS, k, .b | .normalVVV, k, .b | .normalMat _, k, .b => k.b.isConst
  | .normalVSS, k, .x => k.x.isConst
  | .normalVSS, k, .b => k.b.isConst
  | .normalVSV, k, .x => k.x.isConst && k.b.isConst
  | .normalVSV, k, .b => k.b.isConst
  | .uniformSSS, k, .a | .uniformSSS, k, .b => k.a.isConst && k.b.isConst
  | .uniformVec sa sb, k, .x => (sa || sb) && k.x.isConst
  | .uniformVec sa sb, k, .a => k.a.isConst && (k.b.isConst || (k.x.isConst && !sa && sb))
  | .uniformVec sa sb, k, .b => k.b.isConst && (k.a.isConst || (k.x.isConst && sa && !sb))
  | .bernoulliSS, k, .a => k.a.isConst
  | .bernoulliVS, k, .x | .bernoulliVV, k, .x => k.x.isConst
  | .bernoulliVS, k, .a | .bernoulliVV, k, .a => k.a.isConst
  | .wishart, k, .x => k.x.isConst
  | .wishart, k, .a => k.a.isConst
  | _, _, _ => false

/-- the log-density is differentiable in its continuous arguments -/
def StatOp.Smooth : StatOp → ℕ → Args ℝ → Prop
  | .bernoulliSS, _ => ProbSmooth true 1
  | .bernoulliVS, n => ProbSmooth true n
  | .bernoulliVV, n => ProbSmooth false n
  | _, _ => fun _ => True

/-- Bernoulli outcomes are discrete -/
def StatOp.discrete : StatOp → Bool
  | .bernoulliSS | .bernoulliVS | .bernoulliVV => true
  | _ => false

/-- the nodes which use their seed twice (`C23_false_for_vectors`) -/
def StatOp.seedsTwice : StatOp → Bool
  | .cauchyScl _ | .cauchyVec _ => true
  | _ => false

end

end FastAD
