import Verif.Proof.NormalBench
import Verif.Spec.Density
import Mathlib.Analysis.Calculus.Deriv.Mul

/-!
# Property C66: what the benchmarks of the multivariate normal log-density compute
-/

namespace FastAD

open Benchmark

variable [HasInf ℝ] [LinAlg ℝ]

/-- **C66**, benchmark/normal_benchmark.cpp, both versions: for every dimension, all random numbers and any elements of `x` and `mu`, laying out the three variables in the two vectors is defined, the
covariance matrix is valid, every round returns the log-density (without its constant) at `x`, and after `N` rounds the adjoints are `N` times its gradient `g` with respect to `x`, `mu` and the elements
of `sigma`: `g` gives the derivative in every direction `(dx, dm, H)`. -/
theorem C66_normal_benchmark [LawfulLinAlg] (flat : Bool) (n p : ℕ) (x m : ℕ → ℝ) (r : ℕ → ℕ → ℝ) (N qv qa : ℕ) (jv ja : ℕ → ℝ) (s : St ℝ)
    (hf : Fresh (s.allocate ⟨n + n + n * n, n + n + n * n⟩ p p (fun k => if k < n then x k else if k < n + n then m (k - n) else 0) fun _ => 0) ⟨1, 0⟩ qv qa) :
    ∃ g : ℕ → ℝ, normalBench flat n p x m r N qv qa jv ja s =
        some (List.replicate N (Real.log (mvNormalKernel (covMat n r) (fun i => m i) fun i => x i)), (List.range (n + n + n * n)).map fun k => N * g k) ∧
      ∀ (dx dm : Fin n → ℝ) (H : Matrix (Fin n) (Fin n) ℝ),
        HasDerivAt (fun t : ℝ => Real.log (mvNormalKernel (covMat n r + t • H) ((fun i : Fin n => m i) + t • dm) ((fun i : Fin n => x i) + t • dx)))
          (∑ i : Fin n, g i * dx i + ∑ i : Fin n, g (n + i) * dm i + ∑ i : Fin n, ∑ j : Fin n, g (n + n + (i + j * n)) * H i j) 0 := by
  refine ⟨normalAdd n x m r, normal_run hf, fun dx dm H => ?_⟩
  convert! kernel_deriv n r (fun i => x i) (fun i => m i) dx dm H using 1
  congr 1
  · congr 1
    · exact Finset.sum_congr rfl fun i _ => by rw [normalAdd, if_pos i.2, normalZ_eq]
    · exact Finset.sum_congr rfl fun i _ => by rw [normalAdd, if_neg (by omega), if_pos (by omega), Nat.add_sub_cancel_left, normalZ_eq]
  · refine Finset.sum_congr rfl fun i _ => Finset.sum_congr rfl fun j _ => ?_
    have h2 : (i.1 + j.1 * n) % n = i.1 := by rw [Nat.add_mul_mod_self_right, Nat.mod_eq_of_lt i.2]
    have h3 : (i.1 + j.1 * n) / n = j.1 := by rw [Nat.add_mul_div_right _ _ (by omega), Nat.div_eq_of_lt i.2, zero_add]
    rw [normalAdd, if_neg (by omega), if_neg (by omega), Nat.add_sub_cancel_left, h2, h3, normalZ_eq, normalZ_eq, fromMat_at]

/-- **C66**: as the benchmarks leave `x` and `mu` at 0, nothing random is left in their values, which are `-n log 10`; the adjoints of `x` and `mu` stay 0, those of `sigma` are `-N/2` times the inverse of the
covariance matrix. -/
theorem C66_values_not_random [LawfulLinAlg] (flat : Bool) (n p : ℕ) (r : ℕ → ℕ → ℝ) (N qv qa : ℕ) (jv ja : ℕ → ℝ) (s : St ℝ)
    (hf : Fresh (s.allocate ⟨n + n + n * n, n + n + n * n⟩ p p (fun _ => 0) fun _ => 0) ⟨1, 0⟩ qv qa) :
    normalBenchRun flat n p r N qv qa jv ja s = some (List.replicate N (-(n * Real.log 10)),
      (List.range (n + n + n * n)).map fun k => if k < n + n then 0 else -(N / 2) * fromMat (covMat n r)⁻¹ (k - (n + n))) := by
  have h0 : (fun k : ℕ => if k < n then (0 : ℝ) else if k < n + n then 0 else 0) = fun _ => 0 := by funext k; split_ifs <;> rfl
  have hz : ∀ i, normalZ n (fun _ => 0) (fun _ => 0) r i = 0 := fun i => by simp [normalZ]
  rw [normalBenchRun, normal_run (by rw [h0]; exact hf)]
  have hk : Real.log (mvNormalKernel (covMat n r) (fun _ => 0) fun _ => 0) = _ := kernel_value n r
  rw [hk]
  congr 2
  refine List.map_congr_left fun k _ => ?_
  simp only [normalAdd, hz]
  split_ifs
  · ring
  · omega
  · ring
  · ring

/-- three rounds in dimension 1, memory empty before: the covariance matrix is (100), its inverse (1/100) -/
example [LawfulLinAlg] : normalBenchRun false 1 0 (fun _ _ => 0.5) 3 3 3 0 0 (⟨fun _ => 0, fun _ => 0, fun _ => false, fun _ => false⟩ : St ℝ) =
    some ([-Real.log 10, -Real.log 10, -Real.log 10], [0, 0, -3 / 200]) := by
  rw [C66_values_not_random _ _ _ _ _ _ _ _ _ _ ⟨fun k _ => by simp [St.allocate], fun k _ => by simp [St.allocate]⟩]
  have h : covMat 1 (fun _ _ => 0.5) = Matrix.of fun _ _ => 100 := by
    ext i j
    obtain rfl : i = 0 := Subsingleton.elim _ _
    obtain rfl : j = 0 := Subsingleton.elim _ _
    simp [covMat, lowerTri, Matrix.mul_apply]
    norm_num
  have h2 : (covMat 1 (fun _ _ => 0.5))⁻¹ 0 0 = 1 / 100 := by
    rw [h, Matrix.inv_def]
    simp
  have h3 : fromMat (covMat 1 (fun _ _ => 0.5))⁻¹ 0 = 1 / 100 := h2
  have h4 : -(((3 : ℕ) : ℝ) / 2) * (1 / 100) = -3 / 200 := by norm_num
  have h5 : -(((1 : ℕ) : ℝ) * Real.log 10) = -Real.log 10 := by simp
  rw [h5, ← h4, ← h3]
  rfl

/-- the hypotheses hold in every dimension: the vectors at 0, the caches behind them -/
example [LawfulLinAlg] (n : ℕ) (r : ℕ → ℕ → ℝ) : ∃ l, normalBenchRun true n 0 r 2 (n + n + n * n) (n + n + n * n) 0 0 (⟨fun _ => 0, fun _ => 0, fun _ => false, fun _ => false⟩ : St ℝ) =
    some ([-(n * Real.log 10), -(n * Real.log 10)], l) :=
  ⟨_, C66_values_not_random true n 0 r 2 _ _ 0 0 _ ⟨fun k _ => by simp [St.allocate], fun k _ => by simp [St.allocate]⟩⟩

/-- the same at `x = (1, 1)`, `mu = 0`, two rounds -/
example [LawfulLinAlg] : ∃ g : ℕ → ℝ, normalBench true 2 0 (fun _ => 1) (fun _ => 0) (fun _ _ => 3) 2 8 8 0 0 (⟨fun _ => 0, fun _ => 0, fun _ => false, fun _ => false⟩ : St ℝ) =
    some (List.replicate 2 (Real.log (mvNormalKernel (covMat 2 fun _ _ => 3) (fun _ => 0) fun _ => 1)), (List.range 8).map fun k => (2 : ℕ) * g k) := by
  obtain ⟨g, h, -⟩ := C66_normal_benchmark true 2 0 (fun _ => 1) (fun _ => 0) (fun _ _ => 3) 2 8 8 0 0 (⟨fun _ => 0, fun _ => 0, fun _ => false, fun _ => false⟩ : St ℝ)
    ⟨fun k _ => by simp [St.allocate], fun k _ => by simp [St.allocate]⟩
  exact ⟨g, h⟩

end FastAD
