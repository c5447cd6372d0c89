import Verif.Proof.ManyNested

/-!
# Many compound assignments of the same variables

Property C69: test/integration/node_inttest.cpp, `leaf_opeq_many_nested`, for vectors of any size.
-/

namespace FastAD

variable [HasInf ℝ] [LinAlg ℝ]

/-- **C69.** The eight compound assignments of `leaf_opeq_many_nested` followed by `ad::sum(vec_expr)`, for a vector of any size `n ≥ 1` and any scalar that is not 0 or 2 (the last statement divides by `scl * (scl - 2)`):
no undefined behaviour; `autodiff` returns the number that node_inttest.cpp:208-211 expects, the adjoints are those of lines 213-220, and afterwards vector and scalar have their old values. -/
theorem C69_nested_compound_assignments [LawfulLinAlg] {n c qv qa : ℕ} (hn : 1 ≤ n) {x : ℕ → ℝ} {a : ℝ} (ha0 : a ≠ 0) (ha2 : a ≠ 2) {jv ja : ℕ → ℝ} {s : St ℝ}
    (hf : Fresh (s.allocate ⟨n + 1, n + 1⟩ c c (fun k => if k = n then a else x k) (fun _ => 0)) (ManyNested.expr n c : Expr ℝ).bindSize qv qa) :
    ManyNested.run n c x a qv qa jv ja s = some (ManyNested.value n x a, List.replicate n (ManyNested.vecAdj a), ManyNested.sclAdj n x a, (List.range n).map x, a) :=
  ManyNested.run_eq hn ha0 ha2 hf

/-- C69 with three elements 1, 2, 3 and the scalar 3, in an empty memory: variables at 0..3, cache at 20 -/
example [LawfulLinAlg] : ManyNested.run 3 0 (fun k => (k : ℝ) + 1) 3 20 20 (fun _ => 0) (fun _ => 0) (⟨fun _ => 0, fun _ => 0, fun _ => false, fun _ => false⟩ : St ℝ) =
    some (6, [2, 2, 2], -9, [1, 2, 3], 3) := by
  rw [C69_nested_compound_assignments (by omega) (by norm_num) (by norm_num) (by constructor <;> intro k hk <;> simp [St.allocate] <;> omega)]
  simp [ManyNested.value, ManyNested.vecAdj, ManyNested.sclAdj, Finset.sum_range_succ, List.range_succ, List.replicate]
  norm_num

end FastAD
