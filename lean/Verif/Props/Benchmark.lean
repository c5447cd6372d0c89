import Verif.Spec.Benchmark
import Verif.Proof.Benchmark
import Mathlib.Analysis.Calculus.Deriv.Mul
import Mathlib.Analysis.Calculus.Deriv.Add
import Mathlib.Analysis.SpecialFunctions.Trigonometric.Deriv

/-!
# Property C64: what the benchmarks compute
-/

namespace FastAD

open Benchmark

variable [HasInf ℝ] [LinAlg ℝ]

/-- **C64**, benchmark/sum_benchmark.cpp: for every number of variables and all values, in each of the `N` rounds `autodiff` returns the value of the function which the benchmark also differentiates by
finite differences; in the end the adjoints are its partial derivatives times `(N + 2).choose 3`: the exact gradient after one round, but four times the gradient after two and ten times after three,
because the adjoints, in particular those of the placeholders, are not reset. -/
theorem C64_sum_benchmark (n p : ℕ) (x : ℕ → ℝ) (N qv qa : ℕ) (jv ja : ℕ → ℝ) (s : St ℝ)
    (hf : Fresh (s.allocate ⟨n + 2, n + 2⟩ p p (fun k => if k < n then x k else 0) fun _ => 0) (Expr.mkGlue (sumStmt (α := ℝ) n p) (outStmt .sin n p)).bindSize qv qa) :
    ∃ g : ℕ → ℝ, (∀ i < n, HasDerivAt (fun t => sumTest n (Function.update x i t)) (g i) (x i)) ∧
      sumBench n p x N qv qa jv ja s = some (List.replicate N (sumTest n x), (List.range n).map fun i => ((N + 2).choose 3 : ℕ) * g i) := by
  refine ⟨fun i => _, fun i hi => ?_, sum_run _ rfl hf⟩
  have h1 : HasDerivAt (fun t => ∑ j ∈ Finset.range n, Function.update x i t j * Function.update x i t j) (2 * x i) (x i) := by
    have := HasDerivAt.fun_sum (u := Finset.range n) (A := fun j t => Function.update x i t j * Function.update x i t j) (A' := fun j => if j = i then 2 * x i else 0) (x := x i) fun j _ => by
      by_cases hj : j = i
      · subst hj
        simp only [Function.update_self, if_true]
        convert! (hasDerivAt_id' (x j)).mul (hasDerivAt_id' (x j)) using 1
        ring
      · simp only [Function.update_of_ne hj, if_neg hj]
        exact hasDerivAt_const _ _
    convert! this using 1
    simp [hi]
  have h2 := (h1.mul h1).add h1.sin
  simp only [Function.update_eq_self] at h2
  unfold sumTest
  convert! h2 using 1
  ring

/-- two rounds for the variables 1 and 2: `S = 5`, and four times the gradient -/
example : sumBench 2 0 (fun k : ℕ => (k : ℝ) + 1) 2 4 4 (fun _ => 0) (fun _ => 0) (⟨fun _ => 0, fun _ => 0, fun _ => false, fun _ => false⟩ : St ℝ) =
    some ([25 + Real.sin 5, 25 + Real.sin 5], [4 * ((10 + Real.cos 5) * 2), 4 * ((10 + Real.cos 5) * 4)]) := by
  have := sum_run (n := 2) (p := 0) (x := fun k : ℕ => (k : ℝ) + 1) (N := 2) (qv := 4) (qa := 4) (jv := fun _ => 0) (ja := fun _ => 0) (s := ⟨fun _ => 0, fun _ => 0, fun _ => false, fun _ => false⟩) 5
    (by simp [Finset.sum_range_succ]; norm_num) ⟨fun k _ => by simp [St.allocate], fun k _ => by simp [St.allocate]⟩
  rw [this]
  simp [List.range_succ, Nat.choose]
  norm_num

/-- **C64**, benchmark/prod_benchmark.cpp: as above; variables may be zero, as the first one of the benchmark is. -/
theorem C64_prod_benchmark (n p : ℕ) (x : ℕ → ℝ) (N qv qa : ℕ) (jv ja : ℕ → ℝ) (s : St ℝ)
    (hf : Fresh (s.allocate ⟨n + 2, n + 2⟩ p p (fun k => if k < n then x k else 0) fun _ => 0) (Expr.mkGlue (prodStmt (α := ℝ) n p) (outStmt .cos n p)).bindSize qv qa) :
    ∃ g : ℕ → ℝ, (∀ i < n, HasDerivAt (fun t => prodTest n (Function.update x i t)) (g i) (x i)) ∧
      prodBench n p x N qv qa jv ja s = some (List.replicate N (prodTest n x), (List.range n).map fun i => ((N + 2).choose 3 : ℕ) * g i) := by
  refine ⟨fun i => _, fun i hi => ?_, prod_run _ rfl hf⟩
  have h1 : HasDerivAt (fun t => ∏ j ∈ Finset.range n, Function.update x i t j * Function.update x i t j) (2 * x i * ∏ j ∈ (Finset.range n).erase i, x j * x j) (x i) := by
    have e : ∀ t, ∏ j ∈ Finset.range n, Function.update x i t j * Function.update x i t j = t * t * ∏ j ∈ (Finset.range n).erase i, x j * x j := fun t => by
      rw [← Finset.mul_prod_erase _ _ (Finset.mem_range.2 hi), Function.update_self]
      congr 1
      exact Finset.prod_congr rfl fun j hj => by rw [Function.update_of_ne (Finset.ne_of_mem_erase hj)]
    simp only [e]
    convert! ((hasDerivAt_id' (x i)).mul (hasDerivAt_id' (x i))).mul_const (∏ j ∈ (Finset.range n).erase i, x j * x j) using 1
    ring
  have h2 := (h1.mul h1).add h1.cos
  simp only [Function.update_eq_self] at h2
  unfold prodTest
  convert! h2 using 1
  ring

/-- one round for the variables 1 and 2: the exact gradient at product 4 -/
example : prodBench 2 0 (fun k : ℕ => (k : ℝ) + 1) 1 4 4 (fun _ => 0) (fun _ => 0) (⟨fun _ => 0, fun _ => 0, fun _ => false, fun _ => false⟩ : St ℝ) =
    some ([16 + Real.cos 4], [(8 - Real.sin 4) * 8, (8 - Real.sin 4) * 4]) := by
  have := prod_run (n := 2) (p := 0) (x := fun k : ℕ => (k : ℝ) + 1) (N := 1) (qv := 4) (qa := 4) (jv := fun _ => 0) (ja := fun _ => 0) (s := ⟨fun _ => 0, fun _ => 0, fun _ => false, fun _ => false⟩) 4
    (by simp [Finset.prod_range_succ]; norm_num) ⟨fun k _ => by simp [St.allocate], fun k _ => by simp [St.allocate]⟩
  rw [this]
  have e0 : (Finset.range 2).erase 0 = {1} := by decide
  have e1 : (Finset.range 2).erase 1 = {0} := by decide
  simp [List.range_succ, Nat.choose, e0, e1]
  norm_num

omit [HasInf ℝ] [LinAlg ℝ] in
/-- Consequence: from the second round on, the adjoints are not the number of rounds times the gradient, hence what the loop of the README needs, resets (README.md:369-372), is missing. -/
theorem C64_resets_missing (N : ℕ) (hN : 2 ≤ N) : N < (N + 2).choose 3 := by
  induction N, hN using Nat.le_induction with
  | base => decide
  | succ N hN ih =>
    have : 0 < (N + 2).choose 2 := Nat.choose_pos (by omega)
    have e : (N + 1 + 2).choose 3 = (N + 2).choose 2 + (N + 2).choose 3 := Nat.choose_succ_succ _ _
    omega

example : (3 + 2).choose 3 = 10 := by decide

end FastAD
