import Mathlib.Analysis.SpecialFunctions.Trigonometric.Basic

/-!
# The function that benchmark/ad_benchmark.cpp differentiates by finite differences
-/

namespace FastAD.VarCopies

open Finset

/-- `w0` of `f_test1`, ad_benchmark.cpp:17 -/
noncomputable def w0 (x : ℕ → ℝ) : ℝ := x 0 * x 1 - x 2 * Real.sin (x 0)

/-- `w1` of `f_test1`, ad_benchmark.cpp:12-15, 18 -/
noncomputable def w1 (n : ℕ) (x : ℕ → ℝ) : ℝ := x 1 * w0 x - Real.cos (w0 x) + ∑ i ∈ range n, x i

/-- `f_test1` of ad_benchmark.cpp:10-20 -/
noncomputable def test1 (n : ℕ) (x : ℕ → ℝ) : ℝ := w1 n x + Real.exp (w1 n x - w0 x)

end FastAD.VarCopies
