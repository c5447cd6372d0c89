import Verif.Proof.HeadTail

/-!
# A compound assignment between overlapping parts of a vector

Property C68: test/integration/node_inttest.cpp, `leaf_opeq_head_tail`, for vectors of any size.
-/

namespace FastAD

variable [HasInf ℝ] [LinAlg ℝ]

/-- **C68.** `(tail += scl_expr * head, ad::sum(tail))`, where `head` and `tail` are the first and the last `N ≥ 1` of the `N + 1` elements of a vector, has no undefined behaviour; `autodiff` returns the sum of the tail
plus the scalar times the sum of the head, all with the values before, and the adjoints are those that node_inttest.cpp:240-248 expects: although the two parts overlap, values and adjoints are not mixed up. -/
theorem C68_overlapping_parts [LawfulLinAlg] {N c qv qa : ℕ} (hN : 1 ≤ N) {x : ℕ → ℝ} {a : ℝ} {jv ja : ℕ → ℝ} {s : St ℝ}
    (hf : Fresh (s.allocate ⟨N + 2, N + 2⟩ c c (fun k => if k = N + 1 then a else x k) (fun _ => 0)) (HeadTail.expr N c : Expr ℝ).bindSize qv qa) :
    HeadTail.run N c x a qv qa jv ja s = some (HeadTail.value N x a, (List.range (N + 1)).map (HeadTail.adj N a), HeadTail.sclAdj N x) :=
  HeadTail.run_eq hN hf

/-- C68 with three elements 1, 2, 3 and the scalar 10, in an empty memory: variables at 0..3, cache at 20 -/
example [LawfulLinAlg] : HeadTail.run 2 0 (fun k => (k : ℝ) + 1) 10 20 20 (fun _ => 0) (fun _ => 0) (⟨fun _ => 0, fun _ => 0, fun _ => false, fun _ => false⟩ : St ℝ) = some (35, [10, 11, 1], 3) := by
  rw [C68_overlapping_parts (by omega) (by constructor <;> intro k hk <;> simp [St.allocate] <;> omega)]
  simp [HeadTail.value, HeadTail.adj, HeadTail.sclAdj, Finset.sum_range_succ, List.range_succ]
  norm_num

end FastAD
