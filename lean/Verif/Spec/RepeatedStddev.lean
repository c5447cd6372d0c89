import Mathlib.Analysis.SpecialFunctions.Log.Basic

/-!
# The function of benchmark/constant_eager_benchmark.cpp
-/

namespace FastAD.Benchmark

/-- log-likelihood, without the constant `log(√(2π))`, of independent normal observations `v i` with means `w * u i` and standard deviation 2 (constant_eager_benchmark.cpp:44-46) -/
noncomputable def stddevTest (n : ℕ) (u v : ℕ → ℝ) (w : ℝ) : ℝ := ∑ i ∈ Finset.range n, (-(1 / 2) * ((v i - w * u i) / 2) ^ 2 - Real.log 2)

end FastAD.Benchmark
