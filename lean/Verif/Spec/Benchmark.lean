import Mathlib.Analysis.SpecialFunctions.Trigonometric.Basic

/-!
# The functions that the benchmarks differentiate by finite differences
-/

namespace FastAD.Benchmark

open Finset

/-- `f_test` of benchmark/sum_benchmark.cpp:15-22 -/
noncomputable def sumTest (n : ℕ) (x : ℕ → ℝ) : ℝ := (∑ i ∈ range n, x i * x i) * (∑ i ∈ range n, x i * x i) + Real.sin (∑ i ∈ range n, x i * x i)

/-- `f_test` of benchmark/prod_benchmark.cpp:15-22 -/
noncomputable def prodTest (n : ℕ) (x : ℕ → ℝ) : ℝ := (∏ i ∈ range n, x i * x i) * (∏ i ∈ range n, x i * x i) + Real.cos (∏ i ∈ range n, x i * x i)

end FastAD.Benchmark
