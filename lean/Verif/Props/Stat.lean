import Verif.Proof.StatUnique

/-!
# Log-density nodes

Properties C22 to C26 and C36.  `Computes` (Spec/Stat.lean) is the full claim: after any sequence of evaluations with changing parameters, evaluation is defined and
gives the log-density (-infinity where it does not exist) at the current operand values, and the seeds handed to the operands by the backward pass are the gradient,
along any differentiable change of the operands.
-/

namespace FastAD

variable [HasInf ℝ]

/-! ### Normal -/

/-- **C22, scalars.** -/
theorem C22_normal_scalar (k : Kinds) :
    Computes (normalSSS k) k (sdim true true 1) (fun _ => True) (fun _ _ => True) (ScaleOk true 1) (fun _ => True) (normalLog true true 1) fun _ => True :=
  normalSSS_computes k

/-- **C22, vector x, scalar mean, scalar sigma (partial).**  Missing: constant data of length zero, see `C22_false_for_empty_data`. -/
theorem C22_normal_vec_scalar_scalar_partial (k : Kinds) (n : ℕ) (hn : k.x = .const → 0 < n) :
    Computes (normalVSS k n) k (sdim true true n) (fun _ => True) (fun _ _ => True) (ScaleOk true n) (fun _ => True) (normalLog true true n) fun _ => True :=
  normalVSS_computes k n hn

/-- **C22, vector x, vector mean, scalar sigma.** -/
theorem C22_normal_vec_vec_scalar (k : Kinds) (n : ℕ) :
    Computes (normalVVS k n) k (sdim false true n) (fun _ => True) (fun _ _ => True) (ScaleOk true n) (fun _ => True) (normalLog false true n) fun _ => True :=
  normalVVS_computes k n

/-- **C22, vector x, scalar mean, vector sigma.** -/
theorem C22_normal_vec_scalar_vec (k : Kinds) (n : ℕ) :
    Computes (normalVSV k n) k (sdim true false n) (fun _ => True) (fun _ _ => True) (ScaleOk false n) (fun _ => True) (normalLog true false n) fun _ => True :=
  normalVSV_computes k n

/-- **C22, vectors.** -/
theorem C22_normal_vec (k : Kinds) (n : ℕ) :
    Computes (normalVVV k n) k (sdim false false n) (fun _ => True) (fun _ _ => True) (ScaleOk false n) (fun _ => True) (normalLog false false n) fun _ => True :=
  normalVVV_computes k n

/-- **C22, vector x, scalar or vector mean, symmetric matrix sigma.** -/
theorem C22_normal_matrix [LinAlg ℝ] [LawfulLinAlg] (sm : Bool) (k : Kinds) (n : ℕ) :
    Computes (normalMat sm k n) k (mdim sm n) (SigmaSymm n) (fun _ _ => True) (fun v => (toMat n v.b).PosDef) (fun _ => True) (mvNormalLog sm n) fun _ => True :=
  normalMat_computes sm k n

/-- The constructor takes the mean of the constant data, which is not defined for an empty vector. -/
theorem C22_false_for_empty_data :
    ¬ ∀ (k : Kinds) (n : ℕ), Computes (normalVSS k n) k (sdim true true n) (fun _ => True) (fun _ _ => True) (ScaleOk true n) (fun _ => True) (normalLog true true n)
      fun _ => True := by
  intro h
  let v : Args ℝ := ⟨fun _ => 0, fun _ => 0, fun _ => 1⟩
  obtain ⟨c, c', h1, -⟩ := h ⟨.const, .leaf, .leaf⟩ 0 v [] v trivial (fun w hw => ⟨trivial, by simp at hw; subst hw; exact fun _ _ => rfl⟩) trivial
  simp [StatNode.run, normalVSS, ArgKind.isConst] at h1

/-- Constant data (1, 2, 4); the mean was 1 at construction, then 7, is now 2; sigma was 0 (invalid), then 2, is now 3. -/
example : ∃ c c', (normalVSS ⟨.const, .leaf, .node⟩ 3).run ⟨fun i => 2 ^ i, fun _ => 1, fun _ => 0⟩ [⟨fun i => 2 ^ i, fun _ => 7, fun _ => 2⟩] = some c ∧
    (normalVSS ⟨.const, .leaf, .node⟩ 3).feval c ⟨fun i => 2 ^ i, fun _ => 2, fun _ => 3⟩ =
      some (c', orNegInf (ScaleOk true 3) (normalLog true true 3) ⟨fun i => 2 ^ i, fun _ => 2, fun _ => 3⟩) := by
  obtain ⟨c, c', h1, h2, -⟩ := C22_normal_vec_scalar_scalar_partial ⟨.const, .leaf, .node⟩ 3 (by simp) ⟨fun i => 2 ^ i, fun _ => 1, fun _ => 0⟩
    [⟨fun i => 2 ^ i, fun _ => 7, fun _ => 2⟩] ⟨fun i => 2 ^ i, fun _ => 2, fun _ => 3⟩ trivial
    (by intro w hw; refine ⟨trivial, fun s hs => ?_⟩; simp at hw; cases s <;> rcases hw with rfl | rfl <;> simp [Kinds.get, Args.get] at hs ⊢) trivial
  exact ⟨c, c', h1, h2⟩

/-- the positive definite covariance matrix ((2, 1), (1, 2)) is admissible and valid -/
example : let v : Args ℝ := ⟨fun _ => 1, fun _ => 0, fun q => if q = 0 ∨ q = 3 then 2 else 1⟩
    SigmaSymm 2 v ∧ (toMat 2 v.b).PosDef ∧ @LawfulLinAlg exactLinAlg := by
  have hs : (toMat 2 fun q => if q = 0 ∨ q = 3 then (2 : ℝ) else 1).IsSymm := by
    ext i j; fin_cases i <;> fin_cases j <;> simp [toMat]
  refine ⟨hs, Matrix.PosDef.of_dotProduct_mulVec_pos (by simpa [Matrix.IsHermitian, Matrix.conjTranspose_eq_transpose_of_trivial] using hs.eq) fun x hx => ?_, exactLinAlg_lawful⟩
  simp only [dotProduct, Matrix.mulVec, Fin.sum_univ_two, toMat, Matrix.of_apply, star_trivial]
  norm_num
  have : x 0 ≠ 0 ∨ x 1 ≠ 0 := by
    by_contra h
    push Not at h
    exact hx (funext fun i => by fin_cases i <;> simp [h])
  rcases this with h | h
  · nlinarith [sq_nonneg (x 0 + x 1), sq_nonneg (x 1), sq_pos_of_ne_zero h]
  · nlinarith [sq_nonneg (x 0 + x 1), sq_nonneg (x 0), sq_pos_of_ne_zero h]

/-- **C36.** The shortcuts for constant data give the same value and the same seeds of the parameters as the general formula: take for `k` operand types with constant x
(and sigma), for `k'` types without constants, and any history of parameter values. -/
theorem C36_constant_data (k k' : Kinds) (n : ℕ) (hn : 0 < n) (v0 : Args ℝ) (hist : List (Args ℝ)) (v : Args ℝ)
    (hc : ∀ w ∈ v :: hist, SameConsts k v0 w ∧ SameConsts k' v0 w) :
    (∃ c1 c1' c2 c2' r, (normalVSS k n).run v0 hist = some c1 ∧ (normalVSS k n).feval c1 v = some (c2, r) ∧
      (normalVSS k' n).run v0 hist = some c1' ∧ (normalVSS k' n).feval c1' v = some (c2', r) ∧
      ∀ seed s i, k.get s ≠ .const → k'.get s ≠ .const → i < sdim true true n s →
        seedOf ((normalVSS k n).beval c2 v seed) s i = seedOf ((normalVSS k' n).beval c2' v seed) s i) ∧
    ∃ c1 c1' c2 c2' r, (normalVSV k n).run v0 hist = some c1 ∧ (normalVSV k n).feval c1 v = some (c2, r) ∧
      (normalVSV k' n).run v0 hist = some c1' ∧ (normalVSV k' n).feval c1' v = some (c2', r) ∧
      ∀ seed s i, k.get s ≠ .const → k'.get s ≠ .const → i < sdim true false n s →
        seedOf ((normalVSV k n).beval c2 v seed) s i = seedOf ((normalVSV k' n).beval c2' v seed) s i :=
  ⟨(normalVSS_computes k n fun _ => hn).agree (normalVSS_computes k' n fun _ => hn) v0 hist v hc,
    (normalVSV_computes k n).agree (normalVSV_computes k' n) v0 hist v hc⟩

example : (0 : ℕ) < 3 ∧ ∀ w ∈ [(⟨fun i => 2 ^ i, fun _ => 2, fun _ => 3⟩ : Args ℝ), ⟨fun i => 2 ^ i, fun _ => 7, fun _ => 3⟩],
    SameConsts ⟨.const, .leaf, .const⟩ (⟨fun i => 2 ^ i, fun _ => 1, fun _ => 3⟩ : Args ℝ) w ∧
    SameConsts ⟨.node, .leaf, .leaf⟩ (⟨fun i => 2 ^ i, fun _ => 1, fun _ => 3⟩ : Args ℝ) w := by
  refine ⟨by norm_num, fun w hw => ⟨fun s hs => ?_, fun s hs => ?_⟩⟩ <;> simp at hw <;> cases s <;> rcases hw with rfl | rfl <;>
    simp [Kinds.get, Args.get] at hs ⊢

/-! ### Cauchy -/

/-- **C23, scalars.** -/
theorem C23_cauchy_scalar (k : Kinds) :
    Computes cauchySSS k (sdim true true 1) (fun _ => True) (fun _ _ => True) (ScaleOk true 1) (fun _ => True) (cauchyLog true true 1) fun _ => True :=
  cauchySSS_computes k

/-- **C23, vector x, scalar scale, scalar or vector location (partial).**  Missing: seeds other than 0 and 1, see `C23_false_for_vectors`. -/
theorem C23_cauchy_scalar_scale_partial (sl : Bool) (k : Kinds) (n : ℕ) :
    Computes (cauchyScl sl n) k (sdim sl true n) (fun _ => True) (fun _ _ => True) (ScaleOk true n) (fun _ => True) (cauchyLog sl true n) fun s => s = 0 ∨ s = 1 :=
  cauchyScl_computes sl k n

/-- **C23, vector x, vector scale, scalar or vector location (partial).**  Missing: seeds other than 0 and 1, see `C23_false_for_vectors`. -/
theorem C23_cauchy_vector_scale_partial (sl : Bool) (k : Kinds) (n : ℕ) :
    Computes (cauchyVec sl n) k (sdim sl false n) (fun _ => True) (fun _ _ => True) (ScaleOk false n) (fun _ => True) (cauchyLog sl false n) fun s => s = 0 ∨ s = 1 :=
  cauchyVec_computes sl k n

/-- In the four vector cases the seed enters twice: at x = 1, location 0, scale 1, seed 2 the location receives 4 instead of 2. -/
theorem C23_false_for_vectors (sl : Bool) (k : Kinds) (hk : k.a ≠ .const) :
    (¬ Computes (cauchyScl sl 1) k (sdim sl true 1) (fun _ => True) (fun _ _ => True) (ScaleOk true 1) (fun _ => True) (cauchyLog sl true 1) fun _ => True) ∧
    ¬ Computes (cauchyVec sl 1) k (sdim sl false 1) (fun _ => True) (fun _ _ => True) (ScaleOk false 1) (fun _ => True) (cauchyLog sl false 1) fun _ => True := by
  let v : Args ℝ := ⟨fun _ => 1, fun _ => 0, fun _ => 1⟩
  have hc : ∀ w ∈ [v], True ∧ SameConsts k v w := fun w hw => ⟨trivial, by simp at hw; subst hw; exact fun _ _ => rfl⟩
  have h0 : (0 : ℕ) < pdim sl 1 := by cases sl <;> simp [pdim]
  constructor
  · intro h
    obtain ⟨c, c', -, -, h3⟩ := h v [] v trivial hc trivial
    have hok : ScaleOk true 1 v := by simp [ScaleOk, pdim, v]
    have g1 := ((h3 1 trivial).1 hok trivial).scale 2
    have g2 := (h3 2 trivial).1 hok trivial
    rw [mul_one] at g1
    have := g1.unique g2 (s := .a) (i := 0) h0 hk hk (fun _ => trivial) fun _ => trivial
    have e : ∀ (c : Unit) (seed : ℝ), seed ≠ 0 → (cauchyScl sl 1).beval c v seed =
        [(.b, fun _ => seed * seed - seed), (.a, fun _ => seed * seed), (.x, fun _ => -seed)] := by
      intro c seed hs
      cases sl <;> simp only [cauchyScl] <;> norm_num [Fn.beq, Fn.blt, v, sumN_eq, hs] <;>
        exact ⟨funext fun _ => by ring, funext fun _ => by ring, funext fun _ => by ring⟩
    erw [e c' 1 one_ne_zero, e c' 2 two_ne_zero] at this
    simp [seedOf] at this
  · intro h
    obtain ⟨c, c', -, -, h3⟩ := h v [] v trivial hc trivial
    have hok : ScaleOk false 1 v := by simp [ScaleOk, pdim, v]
    have g1 := ((h3 1 trivial).1 hok trivial).scale 2
    have g2 := (h3 2 trivial).1 hok trivial
    rw [mul_one] at g1
    have := g1.unique g2 (s := .a) (i := 0) h0 hk hk (fun _ => trivial) fun _ => trivial
    have e : ∀ (c : Unit) (seed : ℝ), seed ≠ 0 → (cauchyVec sl 1).beval c v seed =
        [(.b, fun _ => seed * seed - seed), (.a, fun _ => seed * seed), (.x, fun _ => -seed)] := by
      intro c seed hs
      cases sl <;> simp only [cauchyVec] <;> norm_num [Fn.beq, Fn.blt, v, sumN_eq, hs, allN] <;>
        exact ⟨funext fun _ => by ring, funext fun _ => by ring, funext fun _ => by ring⟩
    erw [e c' 1 one_ne_zero, e c' 2 two_ne_zero] at this
    simp [seedOf] at this

/-- three observations with their own locations and scales; then the gradient with seed 1 is not the zero list -/
example : let v : Args ℝ := ⟨fun i => i, fun i => 2 * i, fun i => i + 1⟩
    ScaleOk false 3 v ∧ (cauchyVec false 3).beval () v 1 ≠ [] := by
  intro v
  have h : ScaleOk false 3 v := fun i _ => by simp only [v]; positivity
  refine ⟨h, ?_⟩
  simp [cauchyVec, (allN_vec 3 v).2 h, Fn.beq]

/-! ### Uniform -/

/-- **C24, scalars.** -/
theorem C24_uniform_scalar (k : Kinds) :
    Computes (uniformSSS k) k (sdim true true 1) (fun _ => True) (fun _ _ => True) (InRange true true 1) (fun _ => True) (uniformLog true true 1) fun _ => True :=
  uniformSSS_computes k

/-- **C24, vector x (partial).**  Missing: empty vectors with a scalar bound (`C24_false_for_empty_data`), and constant x with one scalar and one vector bound when the
vector bound can change (`C24_false_after_update`) or is an unbound expression (`C24_false_for_expression_bound`). -/
theorem C24_uniform_partial (sa sb : Bool) (k : Kinds) (n : ℕ) (hn : (sa || sb) = true → 0 < n)
    (hk : k.x = .const → sa ≠ sb → (sa = false → k.a = .const) ∧ (sb = false → k.b = .const)) :
    Computes (uniformVec sa sb k n) k (sdim sa sb n) (fun _ => True) (fun _ _ => True) (InRange sa sb n) (fun _ => True) (uniformLog sa sb n) fun _ => True := by
  refine (uniformVec_computes sa sb k n hn fun h1 h2 => ⟨fun h => by rw [(hk h1 h2).1 h]; simp, fun h => by rw [(hk h1 h2).2 h]; simp⟩).hist ?_
  intro v0 l _ hl h1 h2 w hw
  refine ⟨fun h => ?_, fun h => ?_⟩
  · rw [show w.x = v0.x from hl w hw .x h1, show w.a = v0.a from hl w hw .a ((hk h1 h2).1 h)]
  · rw [show w.x = v0.x from hl w hw .x h1, show w.b = v0.b from hl w hw .b ((hk h1 h2).2 h)]

/-- **C24, constant x, one scalar bound, and a vector bound that can change (partial).**  It works as long as the comparison of the data with the vector bound keeps
the outcome it had when the node was constructed. -/
theorem C24_uniform_while_checks_agree_partial (sa sb : Bool) (k : Kinds) (n : ℕ) (hn : 0 < n) (hk : (sa = false → k.a ≠ .node) ∧ (sb = false → k.b ≠ .node)) :
    Computes (uniformVec sa sb k n) k (sdim sa sb n) (fun _ => True) (fun v0 h => ∀ w ∈ h, ChecksAgree sa sb n v0 w) (InRange sa sb n) (fun _ => True)
      (uniformLog sa sb n) fun _ => True :=
  (uniformVec_computes sa sb k n (fun _ => hn) fun _ _ => hk).hist fun _ _ h _ _ _ => h

/-- Data (1), min a vector variable, max a scalar variable: after min was changed from 0 to 5 the node still answers `-log |max - min|` with gradients, although the
observation is now out of range. -/
theorem C24_false_after_update :
    let k : Kinds := ⟨.const, .leaf, .leaf⟩
    let v0 : Args ℝ := ⟨fun _ => 1, fun _ => 0, fun _ => 2⟩
    let v : Args ℝ := ⟨fun _ => 1, fun _ => 5, fun _ => 2⟩
    (∃ c c', (uniformVec false true k 1).run v0 [] = some c ∧ (uniformVec false true k 1).feval c v = some (c', -Real.log 3) ∧
      (uniformVec false true k 1).beval c' v 1 ≠ []) ∧
    ¬ Computes (uniformVec false true k 1) k (sdim false true 1) (fun _ => True) (fun _ _ => True) (InRange false true 1) (fun _ => True) (uniformLog false true 1)
      fun _ => True := by
  intro k v0 v
  have hrun : (uniformVec false true k 1).run v0 [] = some ⟨0, 0, 1, true, false⟩ := by
    simp [StatNode.run, uniformVec, UniformCache.updateX, k, v0, ArgKind.isConst, ArgKind.hasMemory, allN, maxCoeff, Fn.blt]
  have hfev : (uniformVec false true k 1).feval ⟨0, 0, 1, true, false⟩ v = some (⟨Real.log (2 - 5), 0, 1, true, false⟩, -Real.log (2 - 5)) := by
    simp [uniformVec, k, v, ArgKind.isConst, UniformCache.within, Fn.blt, ret, uniformLogDiff, sumN_eq, Fn.log]
  have hbev : (uniformVec false true k 1).beval ⟨Real.log (2 - 5), 0, 1, true, false⟩ v 1 ≠ [] := by
    simp [uniformVec, v, UniformCache.within, Fn.blt, Fn.beq]
  constructor
  · refine ⟨_, _, hrun, ?_, hbev⟩
    rw [hfev, show (2 : ℝ) - 5 = -3 by norm_num, Real.log_neg_eq_log]
  · intro h
    obtain ⟨c, c', h1, h2, h3⟩ := h v0 [] v trivial (fun w hw => ⟨trivial, by
      simp at hw; subst hw; intro s hs; cases s <;> simp [k, Kinds.get, Args.get, v, v0] at hs ⊢⟩) trivial
    rw [hrun] at h1
    obtain rfl := Option.some.inj h1
    rw [hfev] at h2
    have h4 := congrArg Prod.fst (Option.some.inj h2)
    have h5 : c' = (⟨Real.log (2 - 5), 0, 1, true, false⟩ : UniformCache ℝ) := h4.symm
    refine hbev ?_
    rw [← h5]
    refine (h3 1 trivial).2 (.inl fun hr => ?_)
    have := (hr 0 one_pos).1
    norm_num [v, pidx] at this

/-- With constant x and a vector bound that is an expression, the constructor reads the value of the expression before it has any memory. -/
theorem C24_false_for_expression_bound (ka kb : ArgKind) (n : ℕ) (v0 : Args ℝ) :
    (uniformVec false true ⟨.const, .node, kb⟩ n).run v0 [] = none ∧ (uniformVec true false ⟨.const, ka, .node⟩ n).run v0 [] = none := by
  constructor <;> cases n <;> simp [StatNode.run, uniformVec, UniformCache.updateX, ArgKind.isConst, ArgKind.hasMemory]

/-- With a scalar bound, `minCoeff`/`maxCoeff` of empty data is taken. -/
theorem C24_false_for_empty_data (sa sb : Bool) (h : (sa || sb) = true) (ka kb : ArgKind) (v0 : Args ℝ) :
    (uniformVec sa sb ⟨.const, ka, kb⟩ 0).run v0 [] = none := by
  simp [StatNode.run, uniformVec, UniformCache.updateX, ArgKind.isConst, h]

/-- Constant data, both bounds scalar, moved below and back above the data: the value follows. -/
example : ∃ c c', (uniformVec true true ⟨.const, .leaf, .node⟩ 2).run (⟨fun i => i, fun _ => 5, fun _ => 6⟩ : Args ℝ) [⟨fun i => i, fun _ => -3, fun _ => -2⟩] = some c ∧
    (uniformVec true true ⟨.const, .leaf, .node⟩ 2).feval c ⟨fun i => i, fun _ => -1, fun _ => 2⟩ =
      some (c', orNegInf (InRange true true 2) (uniformLog true true 2) ⟨fun i => i, fun _ => -1, fun _ => 2⟩) ∧
    InRange true true 2 ⟨fun i => (i : ℝ), fun _ => -1, fun _ => 2⟩ := by
  obtain ⟨c, c', h1, h2, -⟩ := C24_uniform_partial true true ⟨.const, .leaf, .node⟩ 2 (by simp) (by simp) ⟨fun i => i, fun _ => 5, fun _ => 6⟩
    [⟨fun i => i, fun _ => -3, fun _ => -2⟩] ⟨fun i => i, fun _ => -1, fun _ => 2⟩ trivial
    (by intro w hw; refine ⟨trivial, fun s hs => ?_⟩; simp at hw; cases s <;> rcases hw with rfl | rfl <;> simp [Kinds.get, Args.get] at hs ⊢) trivial
  refine ⟨c, c', h1, h2, fun i hi => ?_⟩
  simp only
  have h3 : (i : ℝ) < 2 := by exact_mod_cast hi
  exact ⟨by have : (0 : ℝ) ≤ i := by positivity
            linarith, h3⟩

example : ChecksAgree false true 2 (⟨fun i => i, fun _ => -1, fun _ => 5⟩ : Args ℝ) ⟨fun i => i, fun _ => -3, fun _ => 0⟩ := by
  refine ⟨fun _ => ⟨fun _ i _ => ?_, fun _ i _ => ?_⟩, fun h => by cases h⟩ <;> simp only <;>
    · have : (0 : ℝ) ≤ i := by positivity
      linarith

/-! ### Bernoulli -/

/-- **C25, scalars.**  Nothing is seeded when the outcome is impossible. -/
theorem C25_bernoulli_scalar (k : Kinds) : ComputesMass (bernoulliSS k) k true 1 fun v => ¬ MassPos true 1 v := bernoulliSS_computes k

/-- **C25, vector x, scalar p.**  Nothing is seeded when the outcomes are impossible. -/
theorem C25_bernoulli_vector_scalar (k : Kinds) (n : ℕ) : ComputesMass (bernoulliVS k n) k true n fun v => ¬ MassPos true n v := bernoulliVS_computes k n

/-- **C25, vectors.**  Nothing is seeded when some observation is neither 0 nor 1. -/
theorem C25_bernoulli_vector (k : Kinds) (n : ℕ) : ComputesMass (bernoulliVV k n) k false n fun v => ∃ i < n, v.x i ≠ 0 ∧ v.x i ≠ 1 := bernoulliVV_computes k n

/-- In contrast to the other cases, the vector case hands out seeds even if the value is -infinity because an outcome is impossible. -/
theorem C25_vector_not_silent (k : Kinds) : ¬ ComputesMass (bernoulliVV k 2) k false 2 fun v => ¬ MassPos false 2 v := by
  intro h
  let v : Args ℝ := ⟨fun _ => 1, fun i => if i = 0 then 0 else 1 / 2, fun _ => 0⟩
  have hz : zeroOneN 2 v.x = true := (zeroOneN_iff _ _).2 fun i _ => .inr rfl
  have h' : ComputesMass (bernoulliVV k 2) k false 2 fun v => ∃ i < 2, v.x i ≠ 0 ∧ v.x i ≠ 1 := bernoulliVV_computes k 2
  obtain ⟨c, c', h1, h2, h3⟩ := h v [] v trivial (fun w hw => ⟨trivial, by simp at hw; subst hw; exact fun _ _ => rfl⟩) trivial
  have h4 := (h3 1).2 (.inl fun hm => by
    have := hm 0 (by norm_num)
    rw [mass_pos_iff] at this
    norm_num [v, pidx] at this)
  have hc2 : ∀ c : Bool × Bool, (bernoulliVV k 2).run v [] = some c → (if k.x.isConst then c.2 else zeroOneN 2 v.x) = true := by
    intro c hc
    split
    · rename_i hk
      simp only [StatNode.run, bernoulliVV, hk, if_true] at hc
      rw [← Option.some.inj hc]
      exact hz
    · exact hz
  have h5 : Prod.snd (c' : Bool × Bool) = true := by
    have e : ((bernoulliVV k 2).feval c v).map (fun r => Prod.snd (r.1 : Bool × Bool)) = some (if k.x.isConst then Prod.snd (c : Bool × Bool) else zeroOneN 2 v.x) := by
      simp only [bernoulliVV, ret]
      repeat' split
      all_goals rfl
    rw [h2, hc2 c h1] at e
    exact Option.some.inj e
  simp [bernoulliVV, h5, Fn.beq] at h4

/-- outcomes (1, 0) with success probabilities (1/2, -3): possible, away from the corners -/
example : MassPos false 2 ⟨fun i => if i = 0 then 1 else 0, fun i => if i = 0 then 1 / 2 else -3, fun _ => 0⟩ ∧
    ProbSmooth false 2 ⟨fun i => if i = 0 then 1 else 0, fun i => if i = 0 then 1 / 2 else -3, fun _ => 0⟩ := by
  constructor
  · intro i hi
    rw [mass_pos_iff]
    interval_cases i <;> norm_num [pidx]
  · intro i hi
    interval_cases i <;> norm_num [pidx]

/-! ### Wishart -/

/-- **C26 (partial).**  `n` is a constant.  Missing: constant x with variable v, see `C26_false_for_constant_x`. -/
theorem C26_wishart_partial [LinAlg ℝ] [LawfulLinAlg] (k : Kinds) (p : ℕ) (hb : k.b = .const) (hx : k.x = .const → k.a = .const) :
    Computes (wishart k p) k (wdim p) (WishartSymm p) (fun _ _ => True) (WishartOk p) (fun _ => True) (wishartLog p) fun _ => True :=
  wishart_computes k p hb hx

/-- With constant x and variable v the value is always -infinity and nothing is seeded, because the constructor skips the decomposition of x (v has not been looked at
yet), and `feval` never makes up for it. -/
theorem C26_false_for_constant_x [LinAlg ℝ] [LawfulLinAlg] (k : Kinds) (hx : k.x = .const) (ha : k.a ≠ .const) (hb : k.b = .const) :
    (∀ (p : ℕ) (v0 : Args ℝ) (h : List (Args ℝ)) (v : Args ℝ), ∃ c c', (wishart k p).run v0 h = some c ∧ (wishart k p).feval c v = some (c', negInf) ∧
      ∀ seed, (wishart k p).beval c' v seed = []) ∧
    ¬ Computes (wishart k 1) k (wdim 1) (WishartSymm 1) (fun _ _ => True) (WishartOk 1) (fun _ => True) (wishartLog 1) fun _ => True := by
  have hstep : ∀ (p : ℕ) (c : WishartCache ℝ) (v : Args ℝ), c.xOk = false → ∃ c' : WishartCache ℝ, (wishart k p).feval c v = some (c', negInf) ∧ c'.xOk = false := by
    intro p c v hc
    have h1 : (c.updateV p v.a).xOk = false := by rw [WishartCache.updateV]; split <;> exact hc
    refine ⟨c.updateV p v.a, ?_, h1⟩
    simp only [wishart, isConst_iff.2 hx, isConst_false ha, Bool.false_eq_true, if_false, if_true, WishartCache.valid, h1, Bool.false_and, ret]
  have hrun : ∀ (p : ℕ) (v0 : Args ℝ) (h : List (Args ℝ)), ∃ c : WishartCache ℝ, (wishart k p).run v0 h = some c ∧ c.xOk = false := by
    intro p v0 h
    induction h with
    | nil =>
      refine ⟨_, rfl, ?_⟩
      simp only [isConst_iff.2 hx, isConst_false ha, Bool.false_eq_true, if_false, if_true, WishartCache.updateX]
    | cons w h ih =>
      obtain ⟨c, h1, h2⟩ := ih
      obtain ⟨c', h3, h4⟩ := hstep p c w h2
      exact ⟨c', by rw [StatNode.run, h1]; show ((wishart k p).feval c w).bind (fun r => some r.1) = _; rw [h3]; rfl, h4⟩
  have hbev : ∀ (p : ℕ) (c : WishartCache ℝ) (v : Args ℝ) (seed : ℝ), c.xOk = false → (wishart k p).beval c v seed = [] := by
    intro p c v seed hc
    simp only [wishart, WishartCache.valid, hc, Bool.false_and, Bool.not_false, Bool.or_true, if_true]
  constructor
  · intro p v0 h v
    obtain ⟨c, h1, h2⟩ := hrun p v0 h
    obtain ⟨c', h3, h4⟩ := hstep p c v h2
    exact ⟨c, c', h1, h3, fun seed => hbev p c' v seed h4⟩
  · intro h
    let v : Args ℝ := ⟨fun _ => 1, fun _ => 1, fun _ => 3⟩
    have hsy : ∀ w : Args ℝ, WishartSymm 1 w := fun w => ⟨Matrix.IsSymm.ext fun i j => by rw [Subsingleton.elim i j], Matrix.IsSymm.ext fun i j => by rw [Subsingleton.elim i j]⟩
    have hone : toMat 1 (fun _ => 1) = 1 := by ext i j; rw [Subsingleton.elim i j]; simp [toMat]
    have hok : WishartOk 1 v := by
      refine ⟨?_, ?_, by norm_num [v]⟩
      · show (toMat 1 fun _ => 1).PosDef; rw [hone]; exact Matrix.PosDef.one
      · show (toMat 1 fun _ => 1).PosDef; rw [hone]; exact Matrix.PosDef.one
    obtain ⟨c, c', h1, h2, h3⟩ := h v [] v trivial (fun w hw => ⟨hsy w, by simp at hw; subst hw; exact fun _ _ => rfl⟩) (hsy v)
    have g1 := (h3 1 trivial).1 hok trivial
    have hc' : (wishart k 1).beval c' v 1 = [] := by
      obtain ⟨d, e1, e2⟩ := hrun 1 v []
      obtain ⟨d', e3, e4⟩ := hstep 1 d v e2
      obtain rfl := Option.some.inj (h1.symm.trans e1)
      rw [show c' = d' from congrArg Prod.fst (Option.some.inj (h2.symm.trans e3))]
      exact hbev 1 d' v 1 e4
    rw [hc'] at g1
    have g2 := wishart_gradient (seed := 1) (calls := [(.a, fun _ => -1), (.x, fun _ => 0)]) hb hok (fun i j => ?_) fun i j => ?_
    · have := g1.unique g2 (s := .a) (i := 0) (by simp [wdim]) ha ha (fun t => hsy _) fun t => hsy _
      norm_num [seedOf] at this
    · show seedOf _ .x _ = 1 * (1 / 2 * (((3 : ℝ) - (1 : ℕ) - 1) * (toMat 1 fun _ => 1)⁻¹ i j - (toMat 1 fun _ => 1)⁻¹ i j))
      rw [hone, Subsingleton.elim i j]
      norm_num [seedOf]
      try decide
    · show seedOf _ .a _ = 1 * (1 / 2 * (((toMat 1 fun _ => 1)⁻¹ * (toMat 1 fun _ => 1) * (toMat 1 fun _ => 1)⁻¹) i j - 3 * (toMat 1 fun _ => 1)⁻¹ i j))
      rw [hone, Subsingleton.elim i j]
      norm_num [seedOf]

example : WishartSymm 2 ⟨fun q => if q = 0 ∨ q = 3 then 1 else 0, fun q => if q = 0 ∨ q = 3 then 1 else 0, fun _ => 5⟩ ∧
    WishartOk 2 ⟨fun q => if q = 0 ∨ q = 3 then 1 else 0, fun q => if q = 0 ∨ q = 3 then 1 else 0, fun _ => 5⟩ := by
  have h : toMat 2 (fun q => if q = 0 ∨ q = 3 then (1 : ℝ) else 0) = 1 := by ext i j; fin_cases i <;> fin_cases j <;> simp [toMat]
  refine ⟨⟨?_, ?_⟩, ?_, ?_, by norm_num⟩
  · simp only [h]; exact Matrix.isSymm_one
  · simp only [h]; exact Matrix.isSymm_one
  · simp only [h]; exact Matrix.PosDef.one
  · simp only [h]; exact Matrix.PosDef.one

end FastAD
