import Mathlib.Analysis.SpecialFunctions.Trigonometric.Basic

/-!
# What test/integration/ad_inttest.cpp expects

The numbers in the `EXPECT_DOUBLE_EQ` of `f_test`, `g_test`, `h_test` (ad_inttest.cpp:63-91), in the order of `adj[0]`, ..., `adj[4]`.
-/

namespace FastAD

namespace IntTest

/-- `f_test`, ad_inttest.cpp:63-71 -/
noncomputable def expectF (x : ℕ → ℝ) : List ℝ := [Real.cos (x 0) * Real.cos (x 1), -Real.sin (x 0) * Real.sin (x 1), 1, x 4, x 3]

/-- `g_test`, ad_inttest.cpp:73-81 -/
noncomputable def expectG (x : ℕ → ℝ) : List ℝ :=
  let sum := Real.sin (x 0) + Real.sin (x 1) + Real.sin (x 2) + Real.sin (x 3) + Real.sin (x 4)
  [0, 1, 2, 3, 4].map fun j => 2 * sum * Real.cos (x j) + Real.sin (x j)

/-- `h_test`, ad_inttest.cpp:83-91 -/
def expectH (x : ℕ → ℝ) : List ℝ := [x 4, 0, 0, 0, x 0]

end IntTest

end FastAD
