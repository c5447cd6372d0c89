import Mathlib.Data.Real.Basic
import Mathlib.Algebra.BigOperators.Intervals

/-!
# What the test `leaf_opeq_many_nested` expects

The numbers in the `EXPECT_DOUBLE_EQ` of node_inttest.cpp:208-220, for a vector of `n` elements.
-/

namespace FastAD

namespace ManyNested

open Finset

/-- `actual`, node_inttest.cpp:208-209 -/
noncomputable def value (n : ℕ) (x : ℕ → ℝ) (a : ℝ) : ℝ := 1 / (a - 2) * (2 * (∑ k ∈ range n, x k) - n) - n

/-- `scl_adj`, node_inttest.cpp:213-214 -/
noncomputable def sclAdj (n : ℕ) (x : ℕ → ℝ) (a : ℝ) : ℝ := -1 / (a - 2) ^ 2 * (2 * (∑ k ∈ range n, x k) - n)

/-- `vec_adj`, node_inttest.cpp:217 -/
noncomputable def vecAdj (a : ℝ) : ℝ := 2 / (a - 2)

end ManyNested

end FastAD
