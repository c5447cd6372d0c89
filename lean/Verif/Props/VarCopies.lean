import Verif.Proof.VarCopies
import Mathlib.Analysis.Calculus.Deriv.Mul
import Mathlib.Analysis.Calculus.Deriv.Add
import Mathlib.Analysis.SpecialFunctions.ExpDeriv
import Mathlib.Analysis.SpecialFunctions.Trigonometric.Deriv

/-!
# Property C65: sums and products over a range of variables refer to the variables
-/

namespace FastAD

open VarCopies

variable [HasInf ℝ] [LinAlg ℝ]

/-- **C65** (partial), `ad::sum(begin, end, f)` where `f` returns views of the `n` variables at `p` (as for a range of `VarView`s): at any later time `autodiff` returns the sum of the values that the variables have then, and adds 1 to each of their adjoints.
Missing: functions that return the variables, which is false, `C65_false_for_sums_of_copies`. -/
theorem C65_sum_of_views_partial {n p : ℕ} {s : St ℝ} (hok : ∀ i < n, s.vok (p + i) = true ∧ s.aok (p + i) = true) {qv qa : ℕ} {jv ja : ℕ → ℝ}
    (hf : Fresh s (Expr.mkSumIter .scl (copies (α := ℝ) n p)).bindSize qv qa) {s1 : St ℝ} (hl : Later (bindExpr (.mkSumIter .scl (copies n p)) qv qa jv ja s).2 s1) :
    ∃ s2 ref, autodiff (bindExpr (.mkSumIter .scl (copies n p)) qv qa jv ja s).1 (fun _ => 1) s1 = some (s2, ref) ∧
      ref.read s2 1 = some (trunc 1 fun _ => ∑ i ∈ Finset.range n, s1.val (p + i)) ∧ ∀ i < n, s2.adj (p + i) = s1.adj (p + i) + 1 :=
  range_views (e := .mkSumIter .scl (copies n p)) (f := fun x => ∑ i ∈ Finset.range n, x i) (g := fun _ _ => 1) sum_prog sum_flat (.inl (by rw [sum_scl]; rfl))
    (by rw [Expr.size, sum_scl]; rfl) sum_denote (by simp [Expr.mkSumIter, Expr.vars]) (by simp [Expr.mkSumIter, Expr.cviews, copies_cviewss])
    (fun m A i hi => by
      simp only [Expr.mkSumIter, Expr.back, Expr.grad]
      rw [copies_grads m (fun _ => _) hi]) hok hf hl

/-- **C65** (partial), `ad::prod(begin, end, f)` where `f` returns views of the variables: as above, the partial derivatives being the products of the others. -/
theorem C65_prod_of_views_partial {n p : ℕ} {s : St ℝ} (hok : ∀ i < n, s.vok (p + i) = true ∧ s.aok (p + i) = true) {qv qa : ℕ} {jv ja : ℕ → ℝ}
    (hf : Fresh s (Expr.mkProdIter .scl (copies (α := ℝ) n p)).bindSize qv qa) {s1 : St ℝ} (hl : Later (bindExpr (.mkProdIter .scl (copies n p)) qv qa jv ja s).2 s1) :
    ∃ s2 ref, autodiff (bindExpr (.mkProdIter .scl (copies n p)) qv qa jv ja s).1 (fun _ => 1) s1 = some (s2, ref) ∧
      ref.read s2 1 = some (trunc 1 fun _ => ∏ i ∈ Finset.range n, s1.val (p + i)) ∧
      ∀ i < n, s2.adj (p + i) = s1.adj (p + i) + ∏ j ∈ (Finset.range n).erase i, s1.val (p + j) :=
  range_views (e := .mkProdIter .scl (copies n p)) (f := fun x => ∏ i ∈ Finset.range n, x i) (g := fun x i => ∏ j ∈ (Finset.range n).erase i, x j) prod_prog prod_flat (.inl (by rw [prod_scl]; rfl))
    (by rw [Expr.size, prod_scl]; rfl) prod_denote (by simp [Expr.mkProdIter, Expr.vars]) (by simp [Expr.mkProdIter, Expr.cviews, copies_cviewss])
    (fun m A i hi => by
      simp only [Expr.mkProdIter, Expr.back, Expr.grad]
      rw [copies_grads m (fun i k => _) hi, prod_others, one_mul]) hok hf hl

/-- views of the variables 1 and 2, where the second one is set to 9 after the binding: the sum is 10 -/
example : ∃ s2 ref, autodiff (bindExpr (.mkSumIter .scl (copies 2 0)) 4 4 0 0 twoVars).1 (fun _ => 1)
      { (bindExpr (.mkSumIter .scl (copies (α := ℝ) 2 0)) 4 4 0 0 twoVars).2 with val := fun k => if k = 1 then 9 else (k : ℝ) + 1 } = some (s2, ref) ∧
    ref.read s2 1 = some (trunc 1 fun _ => 10) ∧ s2.adj 1 = (bindExpr (.mkSumIter .scl (copies (α := ℝ) 2 0)) 4 4 0 0 twoVars).2.adj 1 + 1 := by
  obtain ⟨s2, ref, h1, h2, h3⟩ := C65_sum_of_views_partial (n := 2) (p := 0) (s := twoVars) (qv := 4) (qa := 4) (jv := 0) (ja := 0) (fun i hi => by simp [twoVars]; omega)
    ⟨fun k _ => by simp [twoVars]; omega, fun k _ => by simp [twoVars]; omega⟩
    (s1 := { (bindExpr (.mkSumIter .scl (copies (α := ℝ) 2 0)) 4 4 0 0 twoVars).2 with val := fun k => if k = 1 then 9 else (k : ℝ) + 1 }) ⟨fun _ h => h, fun _ h => h⟩
  refine ⟨s2, ref, h1, ?_, by simpa using h3 1 (by omega)⟩
  rw [h2]
  norm_num [Finset.sum_range_succ]

/-- the product of the variables 1 and 2: value 2, and 2 is added to the adjoint of the first -/
example : ∃ s2 ref, autodiff (bindExpr (.mkProdIter .scl (copies 2 0)) 4 4 0 0 twoVars).1 (fun _ => 1)
      { (bindExpr (.mkProdIter .scl (copies (α := ℝ) 2 0)) 4 4 0 0 twoVars).2 with val := fun k => (k : ℝ) + 1 } = some (s2, ref) ∧
    ref.read s2 1 = some (trunc 1 fun _ => 2) ∧ s2.adj 0 = (bindExpr (.mkProdIter .scl (copies (α := ℝ) 2 0)) 4 4 0 0 twoVars).2.adj 0 + 2 := by
  obtain ⟨s2, ref, h1, h2, h3⟩ := C65_prod_of_views_partial (n := 2) (p := 0) (s := twoVars) (qv := 4) (qa := 4) (jv := 0) (ja := 0) (fun i hi => by simp [twoVars]; omega)
    ⟨fun k _ => by simp [twoVars]; omega, fun k _ => by simp [twoVars]; omega⟩
    (s1 := { (bindExpr (.mkProdIter .scl (copies (α := ℝ) 2 0)) 4 4 0 0 twoVars).2 with val := fun k => (k : ℝ) + 1 }) ⟨fun _ h => h, fun _ h => h⟩
  have e0 : (Finset.range 2).erase 0 = {1} := by decide
  have h30 := h3 0 (by omega)
  simp only [e0, Finset.prod_singleton] at h30
  refine ⟨s2, ref, h1, ?_, h30.trans (by norm_num)⟩
  rw [h2]
  norm_num [Finset.prod_range_succ]

/-- **C65 is false** of `ad::sum` with a function that returns the elements of a range of `Var`s (by value): the node holds copies of the variables, which the bound object owns, at cells the user does not know.
Whatever happens to the variables after the binding, `autodiff` returns the sum of the values which they had before, and no adjoint that existed before, in particular none of the variables', is changed. -/
theorem C65_false_for_sums_of_copies {n p r : ℕ} {s : St ℝ} (hok : ∀ i < n, s.vok (p + i) = true ∧ s.aok (p + i) = true) (hf : Fresh s ⟨n, n⟩ r r) {qv qa : ℕ} {jv ja : ℕ → ℝ}
    (hq : ∀ v a, Fresh (s.allocate ⟨n, n⟩ r r v a) (Expr.mkSumIter .scl (copies (α := ℝ) n r)).bindSize qv qa) :
    ∃ b sb, bindSum n p r qv qa jv ja s = some (b, sb) ∧ ∀ s1, Later sb s1 → (∀ i < n, s1.val (r + i) = sb.val (r + i)) →
      ∃ s2 ref, autodiff b (fun _ => 1) s1 = some (s2, ref) ∧ ref.read s2 1 = some (trunc 1 fun _ => ∑ i ∈ Finset.range n, s.val (p + i)) ∧ ∀ a, s.aok a = true → s2.adj a = s1.adj a := by
  obtain ⟨s0, h0, -, h⟩ := range_later (e := .mkSumIter .scl (copies n r)) (f := fun x => ∑ i ∈ Finset.range n, x i) sum_prog sum_flat (.inl (by rw [sum_scl]; rfl))
    (by rw [Expr.size, sum_scl]; rfl) sum_denote (by simp [Expr.mkSumIter, Expr.vars]) (by simp [Expr.mkSumIter, Expr.cviews, copies_cviewss])
    (fun m A a ha => by
      simp only [Expr.mkSumIter, Expr.back, Expr.grad]
      rw [copies_off m (fun _ => _) ha, add_zero]) hok hf
  have e0 := copyVars_run (n := n) (p := p) (r := r) hok
  rw [h0, Option.some.injEq] at e0
  obtain ⟨h1, h2⟩ := h (jv := jv) (ja := ja) (e0 ▸ hq _ _)
  refine ⟨_, _, by simp only [bindSum, h0, Option.bind_eq_bind, Option.bind_some]; rfl, fun s1 hl hv => ?_⟩
  obtain ⟨s2, ref, g1, g2, g3⟩ := h2 s1 hl
  refine ⟨s2, ref, g1, g2.trans (congrArg some (trunc_congr fun _ _ => Finset.sum_congr rfl fun i hi => ?_)), g3⟩
  exact (hv i (Finset.mem_range.1 hi)).trans (h1 i (Finset.mem_range.1 hi))

/-- **C65 is false** of `ad::prod` likewise. -/
theorem C65_false_for_products_of_copies {n p r : ℕ} {s : St ℝ} (hok : ∀ i < n, s.vok (p + i) = true ∧ s.aok (p + i) = true) (hf : Fresh s ⟨n, n⟩ r r) {qv qa : ℕ} {jv ja : ℕ → ℝ}
    (hq : ∀ v a, Fresh (s.allocate ⟨n, n⟩ r r v a) (Expr.mkProdIter .scl (copies (α := ℝ) n r)).bindSize qv qa) :
    ∃ b sb, bindProd n p r qv qa jv ja s = some (b, sb) ∧ ∀ s1, Later sb s1 → (∀ i < n, s1.val (r + i) = sb.val (r + i)) →
      ∃ s2 ref, autodiff b (fun _ => 1) s1 = some (s2, ref) ∧ ref.read s2 1 = some (trunc 1 fun _ => ∏ i ∈ Finset.range n, s.val (p + i)) ∧ ∀ a, s.aok a = true → s2.adj a = s1.adj a := by
  obtain ⟨s0, h0, -, h⟩ := range_later (e := .mkProdIter .scl (copies n r)) (f := fun x => ∏ i ∈ Finset.range n, x i) prod_prog prod_flat (.inl (by rw [prod_scl]; rfl))
    (by rw [Expr.size, prod_scl]; rfl) prod_denote (by simp [Expr.mkProdIter, Expr.vars]) (by simp [Expr.mkProdIter, Expr.cviews, copies_cviewss])
    (fun m A a ha => by
      simp only [Expr.mkProdIter, Expr.back, Expr.grad]
      rw [copies_off m (fun i k => _) ha, add_zero]) hok hf
  have e0 := copyVars_run (n := n) (p := p) (r := r) hok
  rw [h0, Option.some.injEq] at e0
  obtain ⟨h1, h2⟩ := h (jv := jv) (ja := ja) (e0 ▸ hq _ _)
  refine ⟨_, _, by simp only [bindProd, h0, Option.bind_eq_bind, Option.bind_some]; rfl, fun s1 hl hv => ?_⟩
  obtain ⟨s2, ref, g1, g2, g3⟩ := h2 s1 hl
  refine ⟨s2, ref, g1, g2.trans (congrArg some (trunc_congr fun _ _ => Finset.prod_congr rfl fun i hi => ?_)), g3⟩
  exact (hv i (Finset.mem_range.1 hi)).trans (h1 i (Finset.mem_range.1 hi))

/-- the variables 1 and 2, where the second one is set to 9 after the binding: the sum is still 3, not 10, and the adjoints of both remain 0 -/
example : ∃ b sb, bindSum 2 0 4 8 8 0 0 twoVars = some (b, sb) ∧ ∃ s2 ref, autodiff b (fun _ => 1) { sb with val := fun k => if k = 1 then 9 else sb.val k } = some (s2, ref) ∧
    ref.read s2 1 = some (trunc 1 fun _ => 3) ∧ ∀ a < 2, s2.adj a = sb.adj a := by
  obtain ⟨b, sb, h1, h2⟩ := C65_false_for_sums_of_copies (n := 2) (p := 0) (r := 4) (s := twoVars) (qv := 8) (qa := 8) (jv := 0) (ja := 0) (fun i hi => by simp [twoVars]; omega)
    ⟨fun k _ => by simp [twoVars]; omega, fun k _ => by simp [twoVars]; omega⟩ fun v a => ⟨fun k _ => by simp [St.allocate, twoVars]; omega, fun k _ => by simp [St.allocate, twoVars]; omega⟩
  obtain ⟨s2, ref, h3, h4, h5⟩ := h2 { sb with val := fun k => if k = 1 then 9 else sb.val k } ⟨fun _ h => h, fun _ h => h⟩ fun i _ => by
    show (if 4 + i = 1 then _ else _) = _
    rw [if_neg (by omega)]
  refine ⟨b, sb, h1, s2, ref, h3, ?_, fun a ha => h5 a (by simp [twoVars]; omega)⟩
  rw [h4]
  norm_num [Finset.sum_range_succ, twoVars]

/-- the variables 1 and 2, where the second one is set to 9 after the binding: the product is still 2, not 9 -/
example : ∃ b sb, bindProd 2 0 4 8 8 0 0 twoVars = some (b, sb) ∧ ∃ s2 ref, autodiff b (fun _ => 1) { sb with val := fun k => if k = 1 then 9 else sb.val k } = some (s2, ref) ∧
    ref.read s2 1 = some (trunc 1 fun _ => 2) ∧ ∀ a < 2, s2.adj a = sb.adj a := by
  obtain ⟨b, sb, h1, h2⟩ := C65_false_for_products_of_copies (n := 2) (p := 0) (r := 4) (s := twoVars) (qv := 8) (qa := 8) (jv := 0) (ja := 0) (fun i hi => by simp [twoVars]; omega)
    ⟨fun k _ => by simp [twoVars]; omega, fun k _ => by simp [twoVars]; omega⟩ fun v a => ⟨fun k _ => by simp [St.allocate, twoVars]; omega, fun k _ => by simp [St.allocate, twoVars]; omega⟩
  obtain ⟨s2, ref, h3, h4, h5⟩ := h2 { sb with val := fun k => if k = 1 then 9 else sb.val k } ⟨fun _ h => h, fun _ h => h⟩ fun i _ => by
    show (if 4 + i = 1 then _ else _) = _
    rw [if_neg (by omega)]
  refine ⟨b, sb, h1, s2, ref, h3, ?_, fun a ha => h5 a (by simp [twoVars]; omega)⟩
  rw [h4]
  norm_num [Finset.prod_range_succ, twoVars]

/-- **C65** (partial), benchmark/ad_benchmark.cpp:44-63, for every number of variables from 3 on, all values and any number of rounds: every round returns the value of the function `f_test1` that the benchmark also differentiates by
finite differences.  What is missing from the gradient, after one round, is the same for all variables: `1 + exp(w1 - w0)`, the derivative through the sum.  The variables from the fourth on, which occur only in the sum, keep the
adjoint 0 for ever. -/
theorem C65_ad_benchmark_partial {n p r : ℕ} (h3 : 3 ≤ n) (x : ℕ → ℝ) (N qv qa : ℕ) (jv ja : ℕ → ℝ) (s s0 : St ℝ) (hs0 : s0 = s.allocate ⟨n + 3, n + 3⟩ p p (fun k => if k < n then x k else 0) fun _ => 0)
    (hr : Fresh s0 ⟨n, n⟩ r r) (hf : ∀ v a, Fresh (s0.allocate ⟨n, n⟩ r r v a) (test1Expr (α := ℝ) n p r).bindSize qv qa) :
    ∃ g : ℕ → ℝ, test1Bench n p r x N qv qa jv ja s = some (List.replicate N (test1 n x), (List.range n).map g) ∧
      (N = 1 → ∀ i < n, HasDerivAt (fun t => test1 n (Function.update x i t)) (g i + (1 + Real.exp (w1 n x - w0 x))) (x i)) ∧ ∀ i < n, 3 ≤ i → g i = 0 := by
  refine ⟨_, test1_run h3 hs0 hr hf, ?_, fun i hi hi3 => ?_⟩
  · rintro rfl i hi
    have hsum : HasDerivAt (fun t => ∑ j ∈ Finset.range n, Function.update x i t j) 1 (x i) := by
      have := HasDerivAt.fun_sum (u := Finset.range n) (A := fun j t => Function.update x i t j) (A' := fun j => if j = i then 1 else 0) (x := x i) fun j _ => by
        by_cases hj : j = i
        · subst hj
          simpa using hasDerivAt_id' (x j)
        · simp only [Function.update_of_ne hj, if_neg hj]
          exact hasDerivAt_const _ _
      convert! this using 1
      simp [hi]
    have hup : ∀ j, HasDerivAt (fun t => Function.update x i t j) (if j = i then 1 else 0) (x i) := fun j => by
      by_cases hj : j = i
      · subst hj
        simpa using hasDerivAt_id' (x j)
      · simp only [Function.update_of_ne hj, if_neg hj]
        exact hasDerivAt_const _ _
    have d0 := ((hup 0).mul (hup 1)).sub ((hup 2).mul (hup 0).sin)
    have d1 := (((hup 1).mul d0).sub d0.cos).add hsum
    have d2 := d1.add (d1.sub d0).exp
    simp only [Function.update_eq_self, Pi.mul_apply, Pi.sub_apply, Pi.add_apply] at d2
    unfold test1 w1 w0
    convert! d2 using 1
    rcases (by omega : i = 0 ∨ i = 1 ∨ i = 2 ∨ 3 ≤ i) with rfl | rfl | rfl | h
    · simp [Nat.choose]; ring
    · simp [Nat.choose]; ring
    · simp [Nat.choose]; ring
    · have a0 : i ≠ 0 := by omega
      have a1 : i ≠ 1 := by omega
      have a2 : i ≠ 2 := by omega
      simp [Nat.choose, a0, a1, a2, a0.symm, a1.symm, a2.symm]
  · rw [if_neg (by omega), if_neg (by omega), if_neg (by omega), if_neg (by omega)]
    simp

/-- **C65 is false** of the benchmark: after one round no adjoint is the partial derivative. -/
theorem C65_false_of_ad_benchmark {n p r : ℕ} (h3 : 3 ≤ n) (x : ℕ → ℝ) (qv qa : ℕ) (jv ja : ℕ → ℝ) (s s0 : St ℝ) (hs0 : s0 = s.allocate ⟨n + 3, n + 3⟩ p p (fun k => if k < n then x k else 0) fun _ => 0)
    (hr : Fresh s0 ⟨n, n⟩ r r) (hf : ∀ v a, Fresh (s0.allocate ⟨n, n⟩ r r v a) (test1Expr (α := ℝ) n p r).bindSize qv qa) :
    ∃ g : ℕ → ℝ, test1Bench n p r x 1 qv qa jv ja s = some ([test1 n x], (List.range n).map g) ∧ ∀ i < n, ¬ HasDerivAt (fun t => test1 n (Function.update x i t)) (g i) (x i) := by
  obtain ⟨g, h1, h2, -⟩ := C65_ad_benchmark_partial h3 x 1 qv qa jv ja s s0 hs0 hr hf
  refine ⟨g, h1, fun i hi h => ?_⟩
  have := h.unique (h2 rfl i hi)
  have := Real.exp_pos (w1 n x - w0 x)
  linarith

/-- four variables with value 0: `w0 = 0`, `w1 = -1`, the value is `-1 + exp(-1)`; the adjoint of the fourth variable is 0 after any number of rounds, though its partial derivative is `1 + exp(-1)` -/
example (N : ℕ) : ∃ g : ℕ → ℝ, test1Bench 4 0 8 (fun _ => (0 : ℝ)) N 16 16 0 0 ⟨fun _ => 0, fun _ => 0, fun _ => false, fun _ => false⟩ =
    some (List.replicate N (-1 + Real.exp (-1)), (List.range 4).map g) ∧ g 3 = 0 := by
  obtain ⟨g, h1, -, h2⟩ := C65_ad_benchmark_partial (n := 4) (p := 0) (r := 8) (by omega) (fun _ => (0 : ℝ)) N 16 16 0 0 ⟨fun _ => 0, fun _ => 0, fun _ => false, fun _ => false⟩ _ rfl
    ⟨fun k _ => by simp [St.allocate]; omega, fun k _ => by simp [St.allocate]; omega⟩ fun v a => ⟨fun k _ => by simp [St.allocate]; omega, fun k _ => by simp [St.allocate]; omega⟩
  refine ⟨g, ?_, h2 3 (by omega) (by omega)⟩
  rw [h1]
  simp [test1, w1, w0]

/-- the first round for three variables with value 0: no adjoint is the derivative -/
example : ∃ g : ℕ → ℝ, test1Bench 3 0 8 (fun _ => (0 : ℝ)) 1 16 16 0 0 ⟨fun _ => 0, fun _ => 0, fun _ => false, fun _ => false⟩ = some ([test1 3 fun _ => 0], (List.range 3).map g) ∧
    ¬ HasDerivAt (fun t => test1 3 (Function.update (fun _ => 0) 1 t)) (g 1) 0 := by
  obtain ⟨g, h1, h2⟩ := C65_false_of_ad_benchmark (n := 3) (p := 0) (r := 8) (by omega) (fun _ => (0 : ℝ)) 16 16 0 0 ⟨fun _ => 0, fun _ => 0, fun _ => false, fun _ => false⟩ _ rfl
    ⟨fun k _ => by simp [St.allocate]; omega, fun k _ => by simp [St.allocate]; omega⟩ fun v a => ⟨fun k _ => by simp [St.allocate]; omega, fun k _ => by simp [St.allocate]; omega⟩
  exact ⟨g, h1, h2 1 (by omega)⟩

end FastAD
