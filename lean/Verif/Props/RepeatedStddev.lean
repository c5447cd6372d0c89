import Verif.Spec.RepeatedStddev
import Verif.Proof.RepeatedStddev
import Mathlib.Analysis.Calculus.Deriv.Pow
import Mathlib.Analysis.Calculus.Deriv.Mul
import Mathlib.Analysis.Calculus.Deriv.Add

/-!
# Property C64: what the benchmark of eager constants computes
-/

namespace FastAD

open Benchmark

variable [HasInf ℝ] [LinAlg ℝ]

/-- **C64**, benchmark/constant_eager_benchmark.cpp:29-55: for all data and values of the variable, the constants being folded when the expression is built, every round returns the log-likelihood, and after `N` rounds the adjoint is
`N` times the derivative: without placeholders the adjoints that are not reset only add up.  The allocator's contract is stated for the expression that the building produces. -/
theorem C64_stddev_benchmark (n p : ℕ) (u v : ℕ → ℝ) (w : ℝ) (N qv qa : ℕ) (jv ja : ℕ → ℝ) (s : St ℝ)
    (hf : ∀ e, (Src.sumRange .scl false (stddevTerms p ((List.range n).map fun i => (u i, v i)))).build (s.allocate ⟨1, 1⟩ p p (fun _ => w) fun _ => 0) = some e →
      Fresh (s.allocate ⟨1, 1⟩ p p (fun _ => w) fun _ => 0) e.bindSize qv qa) :
    ∃ g, HasDerivAt (stddevTest n u v) g w ∧ stddevBench n p u v w N qv qa jv ja s = some (List.replicate N (stddevTest n u v w), N * g) := by
  refine ⟨_, ?_, stddev_run (hf _ (stddev_build _))⟩
  have := HasDerivAt.fun_sum (u := Finset.range n) (A := fun i t => -(1 / 2) * ((v i - t * u i) / 2) ^ 2 - Real.log 2) (A' := fun i => u i * (v i - w * u i) / 4) (x := w) fun i _ => by
    have h := (((((hasDerivAt_id' w).mul_const (u i)).const_sub (v i)).div_const 2).fun_pow 2).const_mul (-(1 / 2) : ℝ) |>.sub_const (Real.log 2)
    convert! h using 1
    simp
    ring
  exact this

/-- two rounds for the data (0, 0), (1, 1), (2, 2) and `w = 2`, as in the benchmark: terms -log 2, -1/8 - log 2, -1/2 - log 2, and twice the derivative -5/4 -/
example : stddevBench 3 0 (fun k : ℕ => (k : ℝ)) (fun k : ℕ => (k : ℝ)) 2 2 4 4 0 0 (⟨fun _ => 0, fun _ => 0, fun _ => false, fun _ => false⟩ : St ℝ) =
    some ([-5 / 8 - 3 * Real.log 2, -5 / 8 - 3 * Real.log 2], -5 / 2) := by
  have := stddev_run (n := 3) (p := 0) (u := fun k : ℕ => (k : ℝ)) (v := fun k : ℕ => (k : ℝ)) (w := 2) (N := 2) (qv := 4) (qa := 4) (jv := 0) (ja := 0)
    (s := ⟨fun _ => 0, fun _ => 0, fun _ => false, fun _ => false⟩) ⟨fun k _ => by simp [St.allocate], fun k _ => by simp [St.allocate]⟩
  rw [this]
  have e1 : ∑ i ∈ Finset.range 3, (-(1 / 2) * (((i : ℝ) - 2 * i) / 2) ^ 2 - Real.log 2) = -5 / 8 - 3 * Real.log 2 := by
    simp [Finset.sum_range_succ]; ring
  have e2 : (2 : ℕ) * ∑ i ∈ Finset.range 3, (i : ℝ) * (i - 2 * i) / 4 = -5 / 2 := by
    simp [Finset.sum_range_succ]; ring
  rw [e1, e2]
  rfl

/-- **C64**, BM_repeated_constants (constant_eager_benchmark.cpp:11-25): every evaluation of every copy returns `log(c)`, in any memory, which stays as it is; nothing needs to be bound. -/
theorem C64_repeated_constants (c : ℝ) (n N : ℕ) (s : St ℝ) : repeatedConstants c n N s = some (List.replicate (N * n) (Real.log c), s) :=
  constants_run c (N * n) s

/-- two rounds of three copies of `log(1.0)`, no memory at all -/
example : repeatedConstants 1 3 2 (⟨fun _ => 0, fun _ => 0, fun _ => false, fun _ => false⟩ : St ℝ) = some ([0, 0, 0, 0, 0, 0], ⟨fun _ => 0, fun _ => 0, fun _ => false, fun _ => false⟩) := by
  rw [C64_repeated_constants, Real.log_one]
  rfl

end FastAD
