import Verif.Proof.IntTest

/-!
# The integration tests

Property C67: what test/integration/ad_inttest.cpp expects holds, for any values of the five variables.
-/

namespace FastAD

variable [HasInf ℝ] [LinAlg ℝ]

open IntTest in
/-- **C67.** test/integration/ad_inttest.cpp, `F_test`, `F_with_constant_test`, `G_test`, `H_test`: for any five numbers in place of those of the fixture, any constant in place of 3.14, in any memory, the test runs
without undefined behaviour, and the five adjoints are the numbers in its `EXPECT_DOUBLE_EQ` (in exact arithmetic).  In `H_test` this includes that variables that do not occur keep the adjoint 0. -/
theorem C67_integration_tests [LawfulLinAlg] (x : ℕ → ℝ) (k : ℝ) {c qv qa : ℕ} {s : St ℝ} :
    let ok (e : Expr ℝ) := Fresh (s.allocate ⟨15, 15⟩ c c (fun k => if k < 5 then x k else 0) (fun _ => 0)) e.bindSize qv qa
    (ok (F c) → run (F c) c x qv qa s = some (expectF x)) ∧
    (ok (Fc k c) → run (Fc k c) c x qv qa s = some (expectF x)) ∧
    (ok (G c) → run (G c) c x qv qa s = some (expectG x)) ∧
    (ok (H c) → run (H c) c x qv qa s = some (expectH x)) := by
  refine ⟨fun h => ?_, fun h => ?_, fun h => ?_, fun h => ?_⟩
  · refine (run_of F_program (vars_of [5, 0, 1, 6, 2, 3, 4, 7, 5, 6] rfl (by decide)) rfl rfl (place_of [5, 6, 7] rfl (by decide)) (target_of [5, 6, 7] rfl (by decide)) F_reg
      (φ := fun Y => Real.sin (Y 0) * Real.cos (Y 1) + (Y 2 + Y 3 * Y 4)) F_result (d := fun i => (expectF x).getD i 0)
      (fun i hi => .inl ((adj_of [5, 0, 1, 6, 2, 3, 4, 7, 5, 6] rfl i).2 (by interval_cases i <;> decide))) (by simpa using F_deriv 0 x) h).trans ?_
    rfl
  · refine (run_of (Fc_program k) (vars_of [5, 0, 1, 6, 2, 3, 4, 7, 5, 6] rfl (by decide)) rfl rfl (place_of [5, 6, 7] rfl (by decide)) (target_of [5, 6, 7] rfl (by decide)) (Fc_reg k)
      (φ := fun Y => Real.sin (Y 0) * Real.cos (Y 1) + (Y 2 + Y 3 * Y 4) + k) (Fc_result k) (d := fun i => (expectF x).getD i 0)
      (fun i hi => .inl ((adj_of [5, 0, 1, 6, 2, 3, 4, 7, 5, 6] rfl i).2 (by interval_cases i <;> decide))) (F_deriv k x) h).trans ?_
    rfl
  · refine (run_of G_program (vars_of [5, 0, 1, 2, 3, 4, 6, 5, 5, 0, 1, 2, 3, 4] rfl (by decide)) rfl rfl (place_of [5, 6] rfl (by decide)) (target_of [5, 6] rfl (by decide)) G_reg
      (φ := fun Y => (Real.sin (Y 0) + Real.sin (Y 1) + Real.sin (Y 2) + Real.sin (Y 3) + Real.sin (Y 4)) * (Real.sin (Y 0) + Real.sin (Y 1) + Real.sin (Y 2) + Real.sin (Y 3) + Real.sin (Y 4)) -
        (Real.cos (Y 0) + Real.cos (Y 1) + Real.cos (Y 2) + Real.cos (Y 3) + Real.cos (Y 4))) G_result (d := fun i => (expectG x).getD i 0)
      (fun i hi => .inl ((adj_of [5, 0, 1, 2, 3, 4, 6, 5, 5, 0, 1, 2, 3, 4] rfl i).2 (by interval_cases i <;> decide))) (G_deriv x) h).trans ?_
    rfl
  · have hc : ∀ i, c + i ∈ (H c : Expr ℝ).adjCells ↔ i ∈ [5, 0, 4] := adj_of [5, 0, 4] rfl
    refine (run_of H_program (vars_of [5, 0, 4] rfl (by decide)) rfl rfl (place_of [5] rfl (by decide)) (target_of [5] rfl (by decide)) H_reg
      (φ := fun Y => Y 0 * Y 4) H_result (d := fun i => (expectH x).getD i 0)
      (fun i hi => ?_) (H_deriv x) h).trans ?_
    · by_cases hm : i ∈ [5, 0, 4]
      · exact .inl ((hc i).2 hm)
      · refine .inr ⟨?_, fun y hy => ?_⟩
        · interval_cases i <;> simp [expectH] at hm ⊢
        · rw [show (H c : Expr ℝ).flat = [H c] from rfl, List.mem_singleton] at hy
          rw [hy, hc]; exact hm
    · rfl

open IntTest in
/-- C67 for `F_test` and `H_test` with the numbers of the fixture, in an empty memory: variables at 0..14, buffers at 20 -/
example [LawfulLinAlg] (x : ℕ → ℝ) (hx : x 0 = 0.1 ∧ x 1 = 2.3 ∧ x 2 = -1 ∧ x 3 = 4.1 ∧ x 4 = -5.21) :
    run (F 0) 0 x 20 20 (⟨fun _ => 0, fun _ => 0, fun _ => false, fun _ => false⟩ : St ℝ) = some [Real.cos 0.1 * Real.cos 2.3, -Real.sin 0.1 * Real.sin 2.3, 1, -5.21, 4.1] ∧
    run (H 0) 0 x 20 20 (⟨fun _ => 0, fun _ => 0, fun _ => false, fun _ => false⟩ : St ℝ) = some [-5.21, 0, 0, 0, 0.1] := by
  obtain ⟨h1, -, -, h4⟩ := C67_integration_tests x 3.14 (c := 0) (qv := 20) (qa := 20) (s := ⟨fun _ => 0, fun _ => 0, fun _ => false, fun _ => false⟩)
  obtain ⟨e0, e1, -, e3, e4⟩ := hx
  constructor
  · rw [h1 (by constructor <;> intro k hk <;> simp [St.allocate] <;> omega)]
    simp [expectF, e0, e1, e3, e4]
  · rw [h4 (by constructor <;> intro k hk <;> simp [St.allocate] <;> omega)]
    simp [expectH, e0, e4]

end FastAD
