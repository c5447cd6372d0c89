import Verif.Model.Eval
import Mathlib.Analysis.SpecialFunctions.Trigonometric.Deriv
import Mathlib.Analysis.SpecialFunctions.Trigonometric.Arctan
import Mathlib.Analysis.SpecialFunctions.Trigonometric.Inverse
import Mathlib.Analysis.SpecialFunctions.Log.Basic
import Mathlib.Analysis.SpecialFunctions.Gaussian.GaussianIntegral
import Mathlib.Analysis.Real.Sqrt
import Mathlib.Analysis.Matrix.PosDef
import Mathlib.LinearAlgebra.Matrix.NonsingularInverse
import Mathlib.MeasureTheory.Integral.IntervalIntegral.Basic

/-!
# The real numbers as scalar type

The theorems are about exact real arithmetic: `double` is replaced by `ℝ`, libm functions by the
mathematical functions, and Eigen's decompositions by anything that satisfies their mathematical contract (`LawfulLinAlg`).
Rounding, overflow, and NaN are not modelled.
-/

open scoped Real

namespace FastAD

noncomputable section

/-- The error function (Mathlib has none). -/
def realErf (x : ℝ) : ℝ := (2 / √π) * ∫ t in (0 : ℝ)..x, Real.exp (-t * t)

open Classical in
instance : Fn ℝ where
  sin := Real.sin
  cos := Real.cos
  tan := Real.tan
  asin := Real.arcsin
  acos := Real.arccos
  atan := Real.arctan
  exp := Real.exp
  log := Real.log
  sqrt := Real.sqrt
  abs := fun x => |x|
  erf := realErf
  sinh := Real.sinh
  cosh := Real.cosh
  tanh := Real.tanh
  ipow := fun x n => x ^ n
  twoOverSqrtPi := 2 / √π
  beq := fun x y => decide (x = y)
  blt := fun x y => decide (x < y)
  ble := fun x y => decide (x ≤ y)

/-- The `d`×`d` matrix stored column-major in `f`. -/
def toMat (d : ℕ) (f : ℕ → ℝ) : Matrix (Fin d) (Fin d) ℝ := Matrix.of fun i j => f (i.1 + j.1 * d)

/-- The symmetric matrix whose lower triangle is stored in `f` (Eigen's LLT and LDLT only read the lower triangle). -/
def symMat (d : ℕ) (f : ℕ → ℝ) : Matrix (Fin d) (Fin d) ℝ :=
  Matrix.of fun i j => if j ≤ i then f (i.1 + j.1 * d) else f (j.1 + i.1 * d)

/-- The contract of Eigen's decompositions in exact arithmetic: what the theorems about `det`, `log_det` and the
matrix log-pdfs assume of Eigen. -/
class LawfulLinAlg [LinAlg ℝ] : Prop where
  det_eq : ∀ (d : ℕ) (f : ℕ → ℝ), LinAlg.det d f = (toMat d f).det
  invertible_iff : ∀ (d : ℕ) (f : ℕ → ℝ), LinAlg.invertible d f = true ↔ (toMat d f).det ≠ 0
  inv_eq : ∀ (d : ℕ) (f : ℕ → ℝ), (toMat d f).det ≠ 0 → toMat d (LinAlg.inv d f) = (toMat d f)⁻¹
  symDet_eq : ∀ (d : ℕ) (f : ℕ → ℝ), LinAlg.ldltOk d f = true → LinAlg.symDet d f = (symMat d f).det
  symInv_eq : ∀ (d : ℕ) (f : ℕ → ℝ), (LinAlg.ldltOk d f = true ∨ LinAlg.lltOk d f = true) → (symMat d f).det ≠ 0 →
    toMat d (LinAlg.symInv d f) = (symMat d f)⁻¹
  lltOk_iff : ∀ (d : ℕ) (f : ℕ → ℝ), LinAlg.lltOk d f = true ↔ (symMat d f).PosDef
  lltDetL_pos : ∀ (d : ℕ) (f : ℕ → ℝ), LinAlg.lltOk d f = true → 0 < LinAlg.lltDetL d f
  lltDetL_sq : ∀ (d : ℕ) (f : ℕ → ℝ), LinAlg.lltOk d f = true → LinAlg.lltDetL d f * LinAlg.lltDetL d f = (symMat d f).det

/-- column-major storage of a matrix -/
def fromMat {d : ℕ} (M : Matrix (Fin d) (Fin d) ℝ) : ℕ → ℝ := fun k =>
  if h : k < d * d then
    M ⟨k % d, Nat.mod_lt _ (Nat.pos_of_ne_zero (by rintro rfl; simp at h))⟩ ⟨k / d, Nat.div_lt_of_lt_mul h⟩
  else 0

/-- `fromMat` stores the matrix read by `toMat`. -/
theorem toMat_fromMat {d : ℕ} (M : Matrix (Fin d) (Fin d) ℝ) : toMat d (fromMat M) = M := by
  ext i j
  have hi := i.2
  have hj := j.2
  have hd : 0 < d := by omega
  have h1 : i.1 + j.1 * d < d * d := by nlinarith
  have h2 : (i.1 + j.1 * d) % d = i.1 := by
    rw [Nat.add_mul_mod_self_right, Nat.mod_eq_of_lt hi]
  have h3 : (i.1 + j.1 * d) / d = j.1 := by
    rw [Nat.add_mul_div_right _ _ hd, Nat.div_eq_of_lt hi, zero_add]
  simp only [toMat, Matrix.of_apply, fromMat, h1, dif_pos]
  congr 1 <;> apply Fin.ext <;> simp [h2, h3]

open Classical in
/-- One possible exact implementation of the decompositions; it shows that `LawfulLinAlg` is satisfiable and is used in
the examples. -/
@[reducible] def exactLinAlg : LinAlg ℝ where
  det d f := (toMat d f).det
  invertible d f := decide ((toMat d f).det ≠ 0)
  inv d f := fromMat (toMat d f)⁻¹
  symInv d f := fromMat (symMat d f)⁻¹
  symDet d f := (symMat d f).det
  ldltOk _ _ := true
  lltOk d f := decide (symMat d f).PosDef
  lltDetL d f := √(symMat d f).det

/-- The exact implementation satisfies the contract. -/
theorem exactLinAlg_lawful : @LawfulLinAlg exactLinAlg := by
  let _ := exactLinAlg
  constructor
  · intro d f; rfl
  · intro d f; simp [LinAlg.invertible]
  · intro d f _; exact toMat_fromMat _
  · intro d f _; rfl
  · intro d f _ _; exact toMat_fromMat _
  · intro d f; simp [LinAlg.lltOk]
  · intro d f h
    have : (symMat d f).PosDef := by simpa [LinAlg.lltOk] using h
    exact Real.sqrt_pos.2 this.det_pos
  · intro d f h
    have : (symMat d f).PosDef := by simpa [LinAlg.lltOk] using h
    exact Real.mul_self_sqrt this.det_pos.le

end

end FastAD
