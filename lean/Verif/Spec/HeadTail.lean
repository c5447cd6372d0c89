import Mathlib.Data.Real.Basic
import Mathlib.Algebra.BigOperators.Intervals

/-!
# What the test `leaf_opeq_head_tail` expects

The numbers in the `EXPECT_DOUBLE_EQ` of node_inttest.cpp:231-248, for a vector of `N + 1` elements.
-/

namespace FastAD

namespace HeadTail

open Finset

/-- `actual`, node_inttest.cpp:234-236: sum of the tail plus the scalar times the sum of the head -/
def value (N : ℕ) (x : ℕ → ℝ) (a : ℝ) : ℝ := (∑ k ∈ range N, x (k + 1)) + a * ∑ k ∈ range N, x k

/-- the adjoint of element `i`, node_inttest.cpp:243-247: the scalar for the first, 1 for the last, 1 plus the scalar for the others -/
noncomputable def adj (N : ℕ) (a : ℝ) (i : ℕ) : ℝ := if i = 0 then a else if i = N then 1 else 1 + a

/-- the adjoint of the scalar, node_inttest.cpp:240-241 -/
def sclAdj (N : ℕ) (x : ℕ → ℝ) : ℝ := ∑ k ∈ range N, x k

end HeadTail

end FastAD
