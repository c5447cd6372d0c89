import Mathlib.Data.Matrix.Mul
import Mathlib.Data.Real.Basic

/-!
# The covariance matrices of benchmark/normal_benchmark.cpp
-/

namespace FastAD.Benchmark

/-- the lower triangular matrix with the numbers `r i j` below the diagonal and 10 on it (normal_benchmark.cpp:24-26) -/
def lowerTri (n : ℕ) (r : ℕ → ℕ → ℝ) : Matrix (Fin n) (Fin n) ℝ := Matrix.of fun i j => if j < i then r i j else if i = j then 10 else 0

/-- the covariance matrix `L Lᵀ` (normal_benchmark.cpp:27) -/
def covMat (n : ℕ) (r : ℕ → ℕ → ℝ) : Matrix (Fin n) (Fin n) ℝ := lowerTri n r * (lowerTri n r).transpose

end FastAD.Benchmark
