import Verif.Props.Program
import Verif.Proof.Pullback
import Verif.Proof.Loop

/-!
# Loops over data and training

Properties C38 to C40: what `autodiff` does when the adjoints are not zero, the loops over the rows of a data set of the README, and training loops.
-/

open scoped Topology

namespace FastAD

variable [HasInf ℝ] [LinAlg ℝ]

/-- **C38.** What `autodiff` of a program does for arbitrary adjoints of all variables, placeholders included.  Let `A` be the adjoints before the call.  Afterwards the adjoint of
a variable element (other than a placeholder) is the derivative of `∑_b A_b · (final value of the variable element with adjoint b) + ∑ₖ seed k · p_k` with respect to the value of
the element before the pass.  (C02 is the case in which the adjoints of the assigned variables are zero: then the first sum contributes only the old adjoint of the element itself.) -/
theorem C38_pullback [LawfulLinAlg] {p : Expr ℝ} {s s1 : St ℝ} {qv qa : ℕ} {jv ja : ℕ → ℝ} (hp : p.Program)
    (hal : p.Alive s.vok s.aok) (hf : Fresh s p.bindSize qv qa) (hl : Later (bindExpr p qv qa jv ja s).2 s1) (seed : ℕ → ℝ) :
    ∃ s2 r, autodiff (bindExpr p qv qa jv ja s).1 seed s1 = some (s2, r) ∧
      ∀ π, p.Paired π → Set.InjOn π p.adjCells → (∀ c ∈ p.constCells, c ∉ p.targetCells) →
        ∀ a ∈ p.adjCells, π a ∉ p.constCells → π a ∉ p.placeCells →
          RegSeq p.flat (fun t => Function.update s1.val (π a) t) (s1.val (π a)) →
          HasDerivAt (fun t => ∑ b ∈ p.adjCells, s1.adj b * p.exec (Function.update s1.val (π a) t) (π b) +
              ∑ k ∈ Finset.range p.size, seed k * p.result (Function.update s1.val (π a) t) k)
            (s2.adj a) (s1.val (π a)) := by
  obtain ⟨s2, r, h⟩ := later_autodiff hp hal hf hl seed
  refine ⟨s2, r, h.run, fun π h1 h2 h3 a ha hc hpl hreg => ?_⟩
  rw [h.adj a (fresh_block hf.2 (adjCells_alive hal a ha))]
  exact prog_pullback hp ⟨h1, h2, h3⟩ ha hc hpl hreg seed s1.adj

/-- C38 for the sample program `w = x * sin(x), v *= w, sum(v)` with x = 1, v = (2, 3), when the adjoint of `w` is 7 and the others are zero: the adjoint of `x` becomes
the derivative of `7 x sin(x) + (v₀ + v₁) x sin(x)`, that is 12 (sin 1 + cos 1), instead of 5 (sin 1 + cos 1). -/
example [LawfulLinAlg] : ∃ s2 r, autodiff (bindExpr Sample.p 10 10 0 0 Sample.t).1 1
      { (bindExpr Sample.p 10 10 0 0 Sample.t).2 with adj := fun a => if a = 3 then 7 else 0 } = some (s2, r) ∧
    s2.adj 0 = 12 * (Real.sin 1 + Real.cos 1) := by
  obtain ⟨s2, r, h, h1⟩ := C38_pullback (s1 := { (bindExpr Sample.p 10 10 0 0 Sample.t).2 with adj := fun a => if a = 3 then 7 else 0 }) (jv := 0) (ja := 0)
    Sample.p_program Sample.p_alive Sample.p_fresh ⟨fun _ h => h, fun _ h => h⟩ 1
  refine ⟨s2, r, h, ?_⟩
  have h2 := h1 id Sample.p_paired (Set.injOn_id _) (by decide) 0 (by decide) (by decide) (by decide) (Sample.p_reg _ _)
  have hadj : Sample.p.adjCells = {0, 1, 2, 3} := by decide
  have hv : ∀ a, a < 4 → (bindExpr Sample.p 10 10 0 0 Sample.t).2.val a = (a : ℝ) + 1 := by
    intro a ha
    simp only [bindExpr, St.allocate, fillRange, Sample.t]
    rw [if_neg (by omega)]
  have hv0 := hv 0 (by omega)
  have hv1 := hv 1 (by omega)
  have hv2 := hv 2 (by omega)
  generalize (bindExpr Sample.p 10 10 0 0 Sample.t).2.val = M at *
  norm_num at hv0 hv1 hv2
  rw [hadj, show Sample.p.size = 1 from rfl, id, hv0] at h2
  have h3 : HasDerivAt (fun t : ℝ => 7 * (t * Real.sin t) + (2 * (t * Real.sin t) + 3 * (t * Real.sin t))) (12 * (Real.sin 1 + Real.cos 1)) 1 := by
    have e := (hasDerivAt_id' (1:ℝ)).mul (Real.hasDerivAt_sin 1)
    convert! (e.const_mul 7).add ((e.const_mul 2).add (e.const_mul 3)) using 1
    ring
  refine h2.unique ?_
  convert! h3 using 1
  funext t
  have hex : Sample.p.exec (Function.update M 0 t) 3 = t * Real.sin t := by
    simp [Sample.p, Expr.mkGlue, Expr.mkEq, Expr.mkOpEq, Expr.mkReduce, Expr.mkBinary, Expr.mkUnary, Expr.exec, Expr.denote, assign, Sample.w,
      Sample.v, Sample.x, addr, View.size, Shape.size, Shape.scl, Shape.vec, BOp.real, UOp.real, Expr.shape, Expr.view, Shape.isScl]
  simp [Finset.sum_insert, hex, Sample.p_result, hv1, hv2]

/-! ### The regression model of the README -/

namespace Sample.Readme

/-- parameters theta, a 2×1 matrix: value and adjoint cells 0, 1 (README.md:631-635) -/
def theta : View := ⟨.mat 2 1, some 0, some 0⟩

/-- `pow<2>(yi - dot(xi, theta))`, where xi is a 1×2 view of the buffer at cell 2 and yi a 1×1 view of the buffer at cell 4 (README.md:637-643) -/
def loss : Expr ℝ := .mkPow 2 (.mkBinary .sub (.cview (.mat 1 1) (some 4)) (.mkDot (.cview (.mat 1 2) (some 2)) (.var theta)))

/-- the data of README.md:622-625: x = (i, 10 i), y = 32 i for i = 1, ..., 5 -/
def rows : List (List (ℕ × ℝ)) :=
  [[(2, 1), (3, 10), (4, 32)], [(2, 2), (3, 20), (4, 64)], [(2, 3), (3, 30), (4, 96)], [(2, 4), (3, 40), (4, 128)], [(2, 5), (3, 50), (4, 160)]]

/-- memory with theta = (1, 2) and zero adjoints; everything from cell 5 on is free -/
noncomputable def s : St ℝ := ⟨fun a => (a : ℝ) + 1, fun _ => 0, fun a => decide (a < 5), fun a => decide (a < 5)⟩

omit [HasInf ℝ] [LinAlg ℝ] in
theorem loss_program : loss.Program := by
  refine ⟨⟨⟨⟨?_, ⟨?_, ?_, ?_, ?_, ?_, ?_, ?_, ?_⟩, ?_, ⟨?_, ?_, ?_⟩, ?_⟩, ?_, ?_⟩, ?_, ?_⟩, ?_, ?_⟩ <;>
    simp [loss, Expr.mkPow, Expr.mkBinary, Expr.mkDot, Expr.WF, Expr.shape, Expr.view, View.null, Shape.mat, Shape.Ok, Shape.ofDims, theta, Expr.isIf, Expr.NotConst, Expr.flat,
      sameDims, Expr.binShape, Shape.maxKind, Shape.isScl]

omit [HasInf ℝ] [LinAlg ℝ] in
theorem loss_alive : loss.Alive s.vok s.aok := by
  constructor
  · intro u hu
    simp only [loss, Expr.mkPow, Expr.mkBinary, Expr.mkDot, Expr.vars, List.nil_append, List.mem_cons, List.not_mem_nil, or_false] at hu
    subst hu
    constructor <;> intro k hk <;> simp [theta, View.size, Shape.size, Shape.mat, s] at hk ⊢ <;> omega
  · intro c hc
    simp only [loss, Expr.mkPow, Expr.mkBinary, Expr.mkDot, Expr.cviews, List.append_nil, List.mem_append, List.mem_cons, List.not_mem_nil, or_false] at hc
    rcases hc with rfl | rfl <;> intro k hk <;> simp [Shape.size, Shape.mat, s] at hk ⊢ <;> omega

omit [HasInf ℝ] [LinAlg ℝ] in
theorem loss_fresh : Fresh s loss.bindSize 10 10 := by
  constructor <;> intro k _ <;> simp [s] <;> omega

omit [HasInf ℝ] [LinAlg ℝ] in
theorem loss_paired : loss.Paired id := by
  intro u hu k hk
  simp only [loss, Expr.mkPow, Expr.mkBinary, Expr.mkDot, Expr.vars, List.nil_append, List.mem_cons, List.not_mem_nil, or_false] at hu
  subst hu; rfl

theorem loss_reg (ρ : ℝ → ℕ → ℝ) (x0 : ℝ) : RegSeq loss.flat ρ x0 := by
  simp [loss, Expr.mkPow, Expr.mkBinary, Expr.mkDot, Expr.flat, RegSeq, Expr.RegStmt, Expr.Reg, BOp.isComparison]

theorem loss_result (m : ℕ → ℝ) : loss.result m 0 = (m 4 - (m 2 * m 0 + m 3 * m 1)) ^ 2 := by
  simp [loss, Expr.mkPow, Expr.mkBinary, Expr.mkDot, Expr.result, Expr.denote, realPow, BOp.real, theta, addr, Shape.isScl, Shape.mat, Shape.ofDims, Expr.shape, Expr.view, View.null,
    Finset.sum_range_succ]

omit [HasInf ℝ] [LinAlg ℝ] in
theorem loss_stable : loss.Stable := by
  right
  intro x hx
  simp [loss, Expr.mkPow, Expr.flat] at hx
  subst hx
  trivial

end Sample.Readme

/-- **C39 (partial).** The loop over the rows of a data set (README "Simple Linear Regression Model").  In every round the row buffers are overwritten and the adjoints `resets` are
reset to zero; then the bound program is differentiated and the value of its first coefficient is added to the loss.  For any number of rows with any contents, the loop is
defined, the loss is the sum of the values of the program over the rows, and variables and buffers hold what the user wrote to them.  If the adjoints of all assigned
variables (placeholders and targets of compound assignments) are among those reset in every round, each adjoint which is not reset grows by the partial derivative of the total loss.
Missing: the gradient if placeholder adjoints are not reset in every round, as in example/ceres_3layer_neural_net/src.cpp, for which it is false (`C39_false_for_ceres_example`). -/
theorem C39_data_loop_partial [LawfulLinAlg] {p : Expr ℝ} {s s1 : St ℝ} {qv qa : ℕ} {jv ja : ℕ → ℝ} (hp : p.Program) (hal : p.Alive s.vok s.aok)
    (hf : Fresh s p.bindSize qv qa) (hl : Later (bindExpr p qv qa jv ja s).2 s1) (hst : p.Stable) (hsz : 0 < p.size) (seed : ℕ → ℝ) {resets : List ℕ}
    (hres : ∀ a ∈ resets, s.aok a = true) {rows : List (List (ℕ × ℝ))} (hrow : ∀ row ∈ rows, ∀ w ∈ row, s.vok w.1 = true) (loss : ℝ) :
    ∃ s', dataLoop (bindExpr p qv qa jv ja s).1 seed resets rows loss s1 = some (s', loss + total (fun m => p.result m 0) s1.val rows) ∧
      (∀ c, s.vok c = true → c ∉ p.placeCells → s'.val c = rows.foldl overlay s1.val c) ∧
      ∀ π, p.Paired π → Set.InjOn π p.adjCells → (∀ c ∈ p.constCells, c ∉ p.targetCells) → (∀ a ∈ p.targetAdj, a ∈ resets) →
        ∀ a ∈ p.adjCells, π a ∉ p.constCells → π a ∉ p.placeCells → a ∉ resets → (∀ row ∈ rows, ∀ w ∈ row, w.1 ≠ π a) →
          (∀ m ∈ rowStores s1.val rows, RegSeq p.flat (fun t => Function.update m (π a) t) (m (π a))) →
          HasDerivAt (fun t => total (fun m => ∑ k ∈ Finset.range p.size, seed k * p.result m k) (Function.update s1.val (π a) t) rows)
            (s'.adj a - s1.adj a) (s1.val (π a)) := by
  obtain ⟨s', h, hok⟩ := dataLoop_spec (jv := jv) (ja := ja) hp hal hf hst hsz seed resets hres rows loss hl hrow fun _ _ _ => rfl
  exact ⟨s', h, hok.val, hok.adj⟩

/-- The regression program of the README prints what README.md:660-662 says: loss 6655, theta = (1, 2), adjoints (-1210, -12100). -/
theorem C39_readme_regression [LawfulLinAlg] (jv ja : ℕ → ℝ) :
    ∃ s', dataLoop (bindExpr Sample.Readme.loss 10 10 jv ja Sample.Readme.s).1 1 [] Sample.Readme.rows 0 (bindExpr Sample.Readme.loss 10 10 jv ja Sample.Readme.s).2 = some (s', 6655) ∧
      s'.val 0 = 1 ∧ s'.val 1 = 2 ∧ s'.adj 0 = -1210 ∧ s'.adj 1 = -12100 := by
  have hrow : ∀ row ∈ Sample.Readme.rows, ∀ w ∈ row, w.1 = 2 ∨ w.1 = 3 ∨ w.1 = 4 := by
    intro row hr w hw
    simp only [Sample.Readme.rows, List.mem_cons, List.not_mem_nil, or_false] at hr
    rcases hr with rfl | rfl | rfl | rfl | rfl <;> simp only [List.mem_cons, List.not_mem_nil, or_false] at hw <;> rcases hw with rfl | rfl | rfl <;> simp
  obtain ⟨s', h1, h2, h3⟩ := C39_data_loop_partial (jv := jv) (ja := ja) (s := Sample.Readme.s) (resets := []) (rows := Sample.Readme.rows) Sample.Readme.loss_program
    Sample.Readme.loss_alive Sample.Readme.loss_fresh ⟨fun _ h => h, fun _ h => h⟩ Sample.Readme.loss_stable (by decide) 1 (by simp)
    (fun row hr w hw => by rcases hrow row hr w hw with h | h | h <;> rw [h] <;> simp [Sample.Readme.s]) 0
  have hv : ∀ a, a < 5 → (bindExpr Sample.Readme.loss 10 10 jv ja Sample.Readme.s).2.val a = (a : ℝ) + 1 := by
    intro a ha
    simp only [bindExpr, St.allocate, fillRange, Sample.Readme.s]
    rw [if_neg (by omega)]
  have hA : ∀ a, a < 5 → (bindExpr Sample.Readme.loss 10 10 jv ja Sample.Readme.s).2.adj a = 0 := by
    intro a ha
    simp only [bindExpr, St.allocate, fillRange, Sample.Readme.s]
    rw [if_neg (by omega)]
  have hv0 := hv 0 (by omega)
  have hv1 := hv 1 (by omega)
  have hA0 := hA 0 (by omega)
  have hA1 := hA 1 (by omega)
  generalize (bindExpr Sample.Readme.loss 10 10 jv ja Sample.Readme.s).2 = M at *
  norm_num at hv0 hv1
  refine ⟨s', ?_, ?_, ?_, ?_, ?_⟩
  · rw [h1]
    simp [total, Sample.Readme.rows, rowStores, overlay, Sample.Readme.loss_result, hv0, hv1]
    norm_num
  · rw [h2 0 (by simp [Sample.Readme.s]) (by decide), foldl_overlay fun row hr w hw => by have := hrow row hr w hw; omega, hv0]
  · rw [h2 1 (by simp [Sample.Readme.s]) (by decide), foldl_overlay fun row hr w hw => by have := hrow row hr w hw; omega, hv1]
  · have := h3 id Sample.Readme.loss_paired (Set.injOn_id _) (by decide) (by decide) 0 (by decide) (by decide) (by decide) (by simp)
      (fun row hr w hw => by have := hrow row hr w hw; simp only [id]; omega) fun m _ => Sample.Readme.loss_reg _ _
    rw [id, hA0, sub_zero, hv0] at this
    refine this.unique ?_
    have e : HasDerivAt (fun t : ℝ => 55 * (12 - t) ^ 2) (-1210) 1 := by
      convert! ((((hasDerivAt_id' (1:ℝ)).const_sub 12).pow 2).const_mul 55) using 1
      norm_num
    convert! e using 1
    funext t
    simp [total, Sample.Readme.rows, rowStores, overlay, Sample.Readme.loss_result, hv1, show Sample.Readme.loss.size = 1 from rfl]
    ring
  · have := h3 id Sample.Readme.loss_paired (Set.injOn_id _) (by decide) (by decide) 1 (by decide) (by decide) (by decide) (by simp)
      (fun row hr w hw => by have := hrow row hr w hw; simp only [id]; omega) fun m _ => Sample.Readme.loss_reg _ _
    rw [id, hA1, sub_zero, hv1] at this
    refine this.unique ?_
    have e : HasDerivAt (fun t : ℝ => 55 * (31 - 10 * t) ^ 2) (-12100) 2 := by
      convert! (((((hasDerivAt_id' (2:ℝ)).const_mul 10).const_sub 31).pow 2).const_mul 55) using 1
      norm_num
    convert! e using 1
    funext t
    simp [total, Sample.Readme.rows, rowStores, overlay, Sample.Readme.loss_result, hv0, show Sample.Readme.loss.size = 1 from rfl]
    ring

/-- **C40.** Training.  In every step the optimiser resets the gradient, runs the loop over the data, and replaces the parameters by a function of parameters and adjoints (any
update rule).  If the adjoints of all assigned variables are reset in every round of the loop over the data, then for every number `k` of steps the recorded losses and the final
parameters are exactly those of the mathematical iteration which uses the derivatives of the total loss (`Training.exact`), started at the current values of the variables. -/
theorem C40_training [LawfulLinAlg] {p : Expr ℝ} {s s1 : St ℝ} {qv qa : ℕ} {jv ja : ℕ → ℝ} (hp : p.Program) (hal : p.Alive s.vok s.aok)
    (hf : Fresh s p.bindSize qv qa) (hl : Later (bindExpr p qv qa jv ja s).2 s1) (hst : p.Stable) (hsz : p.size = 1) {seed : ℕ → ℝ} (hseed : seed 0 = 1)
    {resets : List ℕ} (hres : ∀ a ∈ resets, s.aok a = true) {π : ℕ → ℕ} (hπ : p.Paired π) (hinj : Set.InjOn π p.adjCells)
    (hct : ∀ c ∈ p.constCells, c ∉ p.targetCells) (htr : ∀ a ∈ p.targetAdj, a ∈ resets) {T : Training ℝ} (hT : T.Fits p π resets)
    (hrow : ∀ row ∈ T.rows, ∀ w ∈ row, s.vok w.1 = true) (k : ℕ) (hreg : ∀ j < k, T.Regular p ((T.exact fun m => p.result m 0)^[j] s1.val)) :
    ∃ s', T.run (bindExpr p qv qa jv ja s).1 seed resets k s1 =
        some (s', (List.range k).map fun j => total (fun m => p.result m 0) ((T.exact fun m => p.result m 0)^[j] s1.val) T.rows) ∧
      ∀ c, s.vok c = true → c ∉ p.placeCells → s'.val c = (T.exact fun m => p.result m 0)^[k] s1.val c :=
  run_spec (jv := jv) (ja := ja) hp hal hf hst hsz hseed hres ⟨hπ, hinj, hct⟩ htr hT hrow k hl (fun _ _ _ => rfl) hreg

namespace Sample.Readme

/-- gradient descent with rate η on the data of the README -/
def descent (η : ℝ) : Training ℝ := ⟨2, 0, 0, rows, fun θ g i => θ i - η * g i⟩

omit [HasInf ℝ] [LinAlg ℝ] in
theorem rows_cells : ∀ row ∈ rows, ∀ w ∈ row, w.1 = 2 ∨ w.1 = 3 ∨ w.1 = 4 := by
  intro row hr w hw
  simp only [rows, List.mem_cons, List.not_mem_nil, or_false] at hr
  rcases hr with rfl | rfl | rfl | rfl | rfl <;> simp only [List.mem_cons, List.not_mem_nil, or_false] at hw <;> rcases hw with rfl | rfl | rfl <;> simp

omit [HasInf ℝ] [LinAlg ℝ] in
theorem descent_fits (η : ℝ) : (descent η).Fits loss id [] := by
  intro i hi
  have hi : i < 2 := hi
  refine ⟨?_, rfl, ?_, ?_, by simp, ?_⟩
  · have : loss.adjCells = {0, 1} := by decide
    rw [this]; simp [descent]; omega
  · have : loss.constCells = {2, 3, 4} := by decide
    rw [this]; simp [descent]; omega
  · have : loss.placeCells = ∅ := by decide
    rw [this]; simp
  · intro row hr w hw
    have := rows_cells row hr w hw
    simp [descent]; omega

theorem descent_total (m : ℕ → ℝ) : total (fun m => loss.result m 0) m rows = 55 * (32 - m 0 - 10 * m 1) ^ 2 := by
  simp [total, rows, rowStores, overlay, loss_result]
  ring

/-- one exact step -/
theorem descent_exact (η : ℝ) (m : ℕ → ℝ) :
    (descent η).exact (fun m => loss.result m 0) m 0 = m 0 + 110 * η * (32 - m 0 - 10 * m 1) ∧
    (descent η).exact (fun m => loss.result m 0) m 1 = m 1 + 1100 * η * (32 - m 0 - 10 * m 1) := by
  have g0 : (descent η).gradient (fun m => loss.result m 0) m 0 = -110 * (32 - m 0 - 10 * m 1) := by
    have e : HasDerivAt (fun t : ℝ => 55 * (32 - t - 10 * m 1) ^ 2) (-110 * (32 - m 0 - 10 * m 1)) (m 0) := by
      convert! (((((hasDerivAt_id' (m 0)).const_sub 32).sub_const (10 * m 1)).pow 2).const_mul 55) using 1
      ring
    have : (fun t : ℝ => total (fun m => loss.result m 0) (Function.update m 0 t) rows) = fun t => 55 * (32 - t - 10 * m 1) ^ 2 := by
      funext t; rw [descent_total]; simp
    simp only [Training.gradient, descent, trunc, Nat.zero_add, this, e.deriv]
    rfl
  have g1 : (descent η).gradient (fun m => loss.result m 0) m 1 = -1100 * (32 - m 0 - 10 * m 1) := by
    have e : HasDerivAt (fun t : ℝ => 55 * (32 - m 0 - 10 * t) ^ 2) (-1100 * (32 - m 0 - 10 * m 1)) (m 1) := by
      convert! (((((hasDerivAt_id' (m 1)).const_mul 10).const_sub (32 - m 0)).pow 2).const_mul 55) using 1
      ring
    have : (fun t : ℝ => total (fun m => loss.result m 0) (Function.update m 1 t) rows) = fun t => 55 * (32 - m 0 - 10 * t) ^ 2 := by
      funext t; rw [descent_total]; simp
    simp only [Training.gradient, descent, trunc, Nat.zero_add, this, e.deriv]
    rfl
  have u : ∀ i < 2, (descent η).exact (fun m => loss.result m 0) m i = m i - η * (descent η).gradient (fun m => loss.result m 0) m i := by
    intro i hi
    simp [Training.exact, fillRange, descent, hi, trunc]
  rw [u 0 (by omega), u 1 (by omega), g0, g1]
  constructor <;> ring

end Sample.Readme

/-- C40 for gradient descent with any rate η on the regression model of the README, started at theta = (1, 2): the recorded losses are `6655 (1 - 11110 η)^(2j)`, and
after `k` steps the residual factor `32 - theta₀ - 10 theta₁` is `11 (1 - 11110 η)^k`. -/
example [LawfulLinAlg] (jv ja : ℕ → ℝ) (η : ℝ) (k : ℕ) :
    ∃ s', (Sample.Readme.descent η).run (bindExpr Sample.Readme.loss 10 10 jv ja Sample.Readme.s).1 1 [] k (bindExpr Sample.Readme.loss 10 10 jv ja Sample.Readme.s).2 =
        some (s', (List.range k).map fun j => 6655 * (1 - 11110 * η) ^ (2 * j)) ∧
      32 - s'.val 0 - 10 * s'.val 1 = 11 * (1 - 11110 * η) ^ k := by
  obtain ⟨s', h1, h2⟩ := C40_training (jv := jv) (ja := ja) (s := Sample.Readme.s) (resets := []) (seed := 1) (π := id) Sample.Readme.loss_program
    Sample.Readme.loss_alive Sample.Readme.loss_fresh ⟨fun _ h => h, fun _ h => h⟩ Sample.Readme.loss_stable rfl rfl (by simp) Sample.Readme.loss_paired
    (Set.injOn_id _) (by decide) (by decide) (Sample.Readme.descent_fits η)
    (fun row hr w hw => by rcases Sample.Readme.rows_cells row hr w hw with h | h | h <;> rw [h] <;> simp [Sample.Readme.s]) k
    fun j _ i _ m' _ => Sample.Readme.loss_reg _ _
  have hv : ∀ a, a < 5 → (bindExpr Sample.Readme.loss 10 10 jv ja Sample.Readme.s).2.val a = (a : ℝ) + 1 := by
    intro a ha
    simp only [bindExpr, St.allocate, fillRange, Sample.Readme.s]
    rw [if_neg (by omega)]
  have hv0 := hv 0 (by omega)
  have hv1 := hv 1 (by omega)
  generalize (bindExpr Sample.Readme.loss 10 10 jv ja Sample.Readme.s).2 = M at *
  norm_num at hv0 hv1
  have key : ∀ j, 32 - ((Sample.Readme.descent η).exact fun m => Sample.Readme.loss.result m 0)^[j] M.val 0 -
      10 * ((Sample.Readme.descent η).exact fun m => Sample.Readme.loss.result m 0)^[j] M.val 1 = 11 * (1 - 11110 * η) ^ j := by
    intro j
    induction j with
    | zero => simp [hv0, hv1]; norm_num
    | succ j ih =>
      rw [Function.iterate_succ_apply', (Sample.Readme.descent_exact η _).1, (Sample.Readme.descent_exact η _).2, pow_succ]
      linear_combination (1 - 11110 * η) * ih
  refine ⟨s', ?_, ?_⟩
  · rw [h1]
    congr 2
    refine List.map_congr_left fun j _ => ?_
    show total _ _ Sample.Readme.rows = _
    rw [Sample.Readme.descent_total, key j, pow_mul']
    ring
  · rw [h2 0 (by simp [Sample.Readme.s]) (by decide), h2 1 (by simp [Sample.Readme.s]) (by decide), key k]

end FastAD
