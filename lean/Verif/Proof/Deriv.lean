import Verif.Proof.Basic
import Verif.Spec.Regular
import Mathlib.Analysis.SpecialFunctions.Trigonometric.DerivHyp
import Mathlib.Analysis.SpecialFunctions.Trigonometric.ArctanDeriv
import Mathlib.Analysis.SpecialFunctions.Trigonometric.InverseDeriv
import Mathlib.Analysis.SpecialFunctions.Log.Deriv
import Mathlib.Analysis.SpecialFunctions.ExpDeriv
import Mathlib.Analysis.SpecialFunctions.Sqrt
import Mathlib.Analysis.Calculus.Deriv.ZPow
import Mathlib.MeasureTheory.Integral.IntervalIntegral.FundThmCalculus
import Mathlib.Analysis.Calculus.FDeriv.Analytic
import Mathlib.Topology.Instances.Matrix
import Mathlib.LinearAlgebra.Matrix.Adjugate

/-!
# Derivatives of the functors
-/

open scoped Real

namespace FastAD

noncomputable section

theorem hasDerivAt_realErf (x : ℝ) : HasDerivAt realErf (2 / √π * Real.exp (-x * x)) x := by
  have hc : Continuous fun t : ℝ => Real.exp (-t * t) := by fun_prop
  exact (hc.integral_hasStrictDerivAt 0 x).hasDerivAt.const_mul (2 / √π)

theorem UOp.bmap_linear (op : UOp) (g x f : ℝ) : op.bmap g x f = g * op.bmap 1 x f := by
  cases op <;> simp only [UOp.bmap] <;> ring

theorem UOp.hasDerivAt (op : UOp) {x : ℝ} (h : op.DomAt x) :
    HasDerivAt op.real (op.bmap 1 x (op.real x)) x := by
  cases op
  case neg =>
    show HasDerivAt (fun y : ℝ => -y) _ x
    simpa [UOp.real, UOp.bmap] using hasDerivAt_neg x
  case sin =>
    show HasDerivAt (Real.sin) _ x
    simpa [UOp.real, UOp.bmap, Fn.cos] using Real.hasDerivAt_sin x
  case cos =>
    show HasDerivAt (Real.cos) _ x
    simpa [UOp.real, UOp.bmap, Fn.sin] using Real.hasDerivAt_cos x
  case tan =>
    have := Real.hasDerivAt_tan (x := x) h
    simp only [UOp.bmap, Fn.cos]
    rw [← sq]
    exact this
  case asin =>
    have := Real.hasDerivAt_arcsin (x := x) (by have := h.1; linarith) (by have := h.2; linarith)
    simp only [UOp.bmap, Fn.sqrt]
    rw [← sq]
    exact this
  case acos =>
    have := Real.hasDerivAt_arccos (x := x) (by have := h.1; linarith) (by have := h.2; linarith)
    simp only [UOp.bmap, Fn.sqrt]
    rw [← sq]
    exact this
  case atan =>
    have := Real.hasDerivAt_arctan x
    simp only [UOp.bmap]
    rw [← sq]
    exact this
  case exp =>
    show HasDerivAt (Real.exp) _ x
    simpa [UOp.real, UOp.bmap] using Real.hasDerivAt_exp x
  case log =>
    have := Real.hasDerivAt_log (x := x) (by have h : 0 < x := h; linarith)
    show HasDerivAt Real.log _ x
    simpa [UOp.real, UOp.bmap] using this
  case sqrt =>
    have hx : 0 < x := h
    have := Real.hasDerivAt_sqrt (x := x) (by linarith)
    simp only [UOp.bmap, UOp.real]
    convert! this using 1
    have : √x ≠ 0 := by positivity
    field_simp
  case erf =>
    have := hasDerivAt_realErf x
    show HasDerivAt realErf _ x
    simpa [UOp.real, UOp.bmap, Fn.twoOverSqrtPi, Fn.exp] using this
  case sigmoid =>
    have h1 : HasDerivAt (fun y : ℝ => 1 + Real.exp (-y)) (-Real.exp (-x)) x := by
      have := (hasDerivAt_neg x).exp.const_add 1
      simpa using this
    have hpos : 1 + Real.exp (-x) ≠ 0 := by positivity
    have := h1.inv hpos
    simp only [UOp.bmap, Fn.exp]
    convert! this using 1
    rw [add_comm (Real.exp (-x)) 1]
    field_simp
  case sinh =>
    show HasDerivAt (Real.sinh) _ x
    simpa [UOp.real, UOp.bmap, Fn.cosh] using Real.hasDerivAt_sinh x
  case cosh =>
    show HasDerivAt (Real.cosh) _ x
    simpa [UOp.real, UOp.bmap, Fn.sinh] using Real.hasDerivAt_cosh x
  case tanh =>
    have h1 := (Real.hasDerivAt_sinh x).div (Real.hasDerivAt_cosh x) (Real.cosh_pos x).ne'
    have h2 : UOp.tanh.real = fun y => Real.sinh y / Real.cosh y := by
      funext y; exact Real.tanh_eq_sinh_div_cosh y
    rw [h2]
    convert! h1 using 1
    simp only [UOp.bmap]
    have := (Real.cosh_pos x).ne'
    field_simp

/-- the real-exponent-free power function: derivative of `x ↦ x^n` -/
theorem hasDerivAt_realPow [HasInf ℝ] (n : ℤ) {x : ℝ} (h : 0 ≤ n ∨ x ≠ 0) :
    HasDerivAt (realPow n) ((n : ℝ) * x ^ (n - 1)) x := by
  rcases lt_or_ge n 0 with hn | hn
  · have hx : x ≠ 0 := h.resolve_left (by omega)
    refine (hasDerivAt_zpow n x (Or.inl hx)).congr_of_eventuallyEq ?_
    filter_upwards [isOpen_ne.mem_nhds hx] with y hy
    simp [realPow, hy]
  · refine (hasDerivAt_zpow n x (Or.inr hn)).congr_of_eventuallyEq ?_
    filter_upwards with y
    simp only [realPow]
    rw [if_neg (by omega)]

theorem powSeed_eq [HasInf ℝ] (n : ℤ) (h0 : n ≠ 0) (h1 : n ≠ 1) {g x : ℝ} (h : 0 ≤ n ∨ x ≠ 0) :
    powSeed n g (realPow n x) x = g * ((n : ℝ) * x ^ (n - 1)) := by
  simp only [powSeed, beq_iff, realPow]
  by_cases hx : x = 0
  · have hn : 0 ≤ n := h.resolve_right (by simp [hx])
    rw [if_pos (by omega), if_pos hx, hx, zero_zpow _ (by omega)]
    simp
  · simp only [hx, and_false, if_false]
    rw [zpow_sub_one₀ hx]
    split <;> field_simp

/-- the determinant as a continuous multilinear map of the rows -/
def detCML (d : ℕ) : ContinuousMultilinearMap ℝ (fun _ : Fin d => Fin d → ℝ) ℝ where
  toMultilinearMap := (Matrix.detRowAlternating (n := Fin d) (R := ℝ)).toMultilinearMap
  cont := by
    show Continuous fun M : Fin d → Fin d → ℝ => Matrix.det (Matrix.of M)
    exact Continuous.matrix_det (continuous_matrix fun i j => by fun_prop)

/-- Jacobi's formula for a matrix-valued function. -/
theorem hasFDerivAt_det {E : Type*} [NormedAddCommGroup E] [NormedSpace ℝ E] {d : ℕ}
    {A : E → Matrix (Fin d) (Fin d) ℝ} {A' : Fin d → Fin d → E →L[ℝ] ℝ} {x : E}
    (h : ∀ i j, HasFDerivAt (fun y => A y i j) (A' i j) x) :
    HasFDerivAt (fun y => (A y).det) (∑ i, ∑ j, (A x).adjugate j i • A' i j) x := by
  have h1 : HasFDerivAt (fun y => fun i => (A y i : Fin d → ℝ))
      (ContinuousLinearMap.pi fun i => ContinuousLinearMap.pi fun j => A' i j) x := by
    rw [hasFDerivAt_pi]
    intro i
    rw [hasFDerivAt_pi]
    exact fun j => h i j
  have h2 := ((detCML d).hasFDerivAt (fun i => A x i)).comp x h1
  convert! h2 using 1
  ext v
  rw [ContinuousLinearMap.comp_apply, ContinuousMultilinearMap.linearDeriv_apply]
  simp only [_root_.sum_apply, _root_.smul_apply, smul_eq_mul]
  refine Finset.sum_congr rfl fun i _ => ?_
  have h3 : (detCML d) (Function.update (fun i => A x i) i (fun j => A' i j v)) =
      ((A x).updateRow i (fun j => A' i j v)).det := rfl
  show _ = (detCML d) (Function.update (fun i => A x i) i (fun j => A' i j v))
  rw [h3, ← Matrix.cramer_transpose_apply, Matrix.cramer_eq_adjugate_mulVec, Matrix.mulVec, ← Matrix.adjugate_transpose]
  rfl

/-! ### column-major indices -/

/-- column-major reindexing of a sum -/
theorem sum_range_mul' {M : Type*} [AddCommMonoid M] (m n : ℕ) (F : ℕ → M) :
    ∑ k ∈ Finset.range (m * n), F k = ∑ j ∈ Finset.range n, ∑ i ∈ Finset.range m, F (i + j * m) := by
  induction n with
  | zero => simp
  | succ n ih =>
    rw [Finset.sum_range_succ, ← ih, Nat.mul_succ, Finset.sum_range_add]
    congr 1
    refine Finset.sum_congr rfl fun i _ => ?_
    rw [Nat.mul_comm n m, Nat.add_comm]

theorem mod_idx {i j m : ℕ} (hi : i < m) : (i + j * m) % m = i := by
  rw [Nat.add_mul_mod_self_right, Nat.mod_eq_of_lt hi]

theorem div_idx {i j m : ℕ} (hi : i < m) : (i + j * m) / m = j := by
  rw [Nat.add_mul_div_right _ _ (by omega), Nat.div_eq_of_lt hi, zero_add]

theorem sum_mat {M : Type*} [AddCommMonoid M] (d : ℕ) (F : ℕ → M) :
    ∑ k ∈ Finset.range (d * d), F k = ∑ i : Fin d, ∑ j : Fin d, F (i.1 + j.1 * d) := by
  rw [sum_range_mul', Finset.sum_comm]
  simp only [Finset.sum_range]

theorem toMat_trunc (d : ℕ) (f : ℕ → ℝ) : toMat d (trunc (d * d) f) = toMat d f := by
  ext i j
  have hi := i.2
  have hj := j.2
  simp only [toMat, Matrix.of_apply]
  exact trunc_of_lt (by nlinarith)

theorem symMat_eq (d : ℕ) (f : ℕ → ℝ) (h : (toMat d f).IsSymm) : symMat d f = toMat d f := by
  ext i j
  simp only [symMat, toMat, Matrix.of_apply]
  split
  · rfl
  · exact h.apply i j

end

end FastAD
