import Verif.Proof.StatNormal
import Verif.Proof.Deriv
import Mathlib.Analysis.Normed.Module.FiniteDimension

/-!
# Log-density nodes with matrix operands: calculus of symmetric matrices
-/

open scoped Real Topology

namespace FastAD

noncomputable section

set_option linter.unusedSectionVars false

section
variable {E : Type} [NormedAddCommGroup E] [NormedSpace ℝ E] {n : ℕ}

/-- a symmetric matrix stays positive definite under small changes -/
theorem posDef_open {A : E → Matrix (Fin n) (Fin n) ℝ} {t0 : E} (hc : ∀ i j, ContinuousAt (fun t => A t i j) t0) (hs : ∀ t, (A t).IsSymm) (h0 : (A t0).PosDef) :
    ∀ᶠ t in 𝓝 t0, (A t).PosDef := by
  have hK : IsCompact (Metric.sphere (0 : Fin n → ℝ) 1) := isCompact_sphere 0 1
  have key : ∀ᶠ t in 𝓝 t0, ∀ x ∈ Metric.sphere (0 : Fin n → ℝ) 1, 0 < ∑ i, ∑ j, x i * A t i j * x j := by
    refine hK.eventually_forall_of_forall_eventually fun x hx => ?_
    have hcont : ContinuousAt (fun z : E × (Fin n → ℝ) => ∑ i, ∑ j, z.2 i * A z.1 i j * z.2 j) (t0, x) := by
      refine tendsto_finsetSum _ fun i _ => tendsto_finsetSum _ fun j _ => ?_
      have h1 : ContinuousAt (fun z : E × (Fin n → ℝ) => A z.1 i j) (t0, x) := ContinuousAt.comp (f := Prod.fst) (g := fun t => A t i j) (x := (t0, x)) (hc i j) continuousAt_fst
      have h2 : ∀ i, ContinuousAt (fun z : E × (Fin n → ℝ) => z.2 i) (t0, x) := fun i => ((continuous_apply i).comp continuous_snd).continuousAt
      exact ((h2 i).mul h1).mul (h2 j)
    have hx0 : x ≠ 0 := by rintro rfl; simp at hx
    have hpos : 0 < ∑ i, ∑ j, x i * A t0 i j * x j := by
      have := h0.dotProduct_mulVec_pos hx0
      simpa [dotProduct, Matrix.mulVec, Finset.mul_sum, mul_assoc] using this
    exact hcont.eventually_const_lt hpos
  filter_upwards [key] with t ht
  refine Matrix.PosDef.of_dotProduct_mulVec_pos (by simpa [Matrix.IsHermitian, Matrix.conjTranspose_eq_transpose_of_trivial] using (hs t).eq) fun x hx => ?_
  have hn : ‖x‖ ≠ 0 := norm_ne_zero_iff.2 hx
  have h1 := ht (‖x‖⁻¹ • x) (by simp [norm_smul, hn])
  have e : ∑ i, ∑ j, (‖x‖⁻¹ • x) i * A t i j * (‖x‖⁻¹ • x) j = ‖x‖⁻¹ * ‖x‖⁻¹ * ∑ i, ∑ j, x i * A t i j * x j := by
    simp only [Finset.mul_sum, Pi.smul_apply, smul_eq_mul]
    exact Finset.sum_congr rfl fun i _ => Finset.sum_congr rfl fun j _ => by ring
  rw [e] at h1
  have h2 : 0 < ‖x‖⁻¹ * ‖x‖⁻¹ := by positivity
  have h3 := (mul_pos_iff_of_pos_left h2).1 h1
  simpa [dotProduct, Matrix.mulVec, Finset.mul_sum, mul_assoc] using h3

/-- the derivative of the inverse of a matrix -/
theorem hasFDerivAt_matInv {A : E → Matrix (Fin n) (Fin n) ℝ} {A' : Fin n → Fin n → E →L[ℝ] ℝ} {t0 : E} (h : ∀ i j, HasFDerivAt (fun t => A t i j) (A' i j) t0)
    (hd : (A t0).det ≠ 0) (i j : Fin n) :
    HasFDerivAt (fun t => (A t)⁻¹ i j) (-∑ k, ∑ l, ((A t0)⁻¹ i k * (A t0)⁻¹ l j) • A' k l) t0 := by
  have hdet := hasFDerivAt_det h
  have hadj : ∀ i j, DifferentiableAt ℝ (fun t => (A t).adjugate i j) t0 := by
    intro i j
    simp only [Matrix.adjugate_apply]
    have : ∀ a b, HasFDerivAt (fun t => (A t).updateRow j (Pi.single i 1) a b) (if a = j then 0 else A' a b) t0 := by
      intro a b
      by_cases ha : a = j
      · subst ha
        simp only [Matrix.updateRow_self, if_true]
        exact hasFDerivAt_const _ _
      · simp only [Matrix.updateRow_ne ha, if_neg ha]
        exact h a b
    exact (hasFDerivAt_det this).differentiableAt
  have hdiff : ∀ i j, DifferentiableAt ℝ (fun t => (A t)⁻¹ i j) t0 := by
    intro i j
    have e : (fun t => (A t)⁻¹ i j) = fun t => (A t).det⁻¹ * (A t).adjugate i j := by
      funext t
      simp [Matrix.inv_def, Ring.inverse_eq_inv']
    rw [e]
    exact (hdet.differentiableAt.inv hd).mul (hadj i j)
  have hev : ∀ᶠ t in 𝓝 t0, (A t).det ≠ 0 := hdet.continuousAt.eventually_ne hd
  let B' := fun i j => fderiv ℝ (fun t => (A t)⁻¹ i j) t0
  have hB : ∀ i j, HasFDerivAt (fun t => (A t)⁻¹ i j) (B' i j) t0 := fun i j => (hdiff i j).hasFDerivAt
  have hprod : ∀ i j, ∑ k, ((A t0)⁻¹ i k • A' k j + A t0 k j • B' i k) = 0 := by
    intro i j
    have h1 : HasFDerivAt (fun t => ∑ k, (A t)⁻¹ i k * A t k j) (∑ k, ((A t0)⁻¹ i k • A' k j + A t0 k j • B' i k)) t0 :=
      HasFDerivAt.fun_sum fun k _ => (hB i k).mul (h k j)
    have h2 : HasFDerivAt (fun t => ∑ k, (A t)⁻¹ i k * A t k j) (0 : E →L[ℝ] ℝ) t0 := by
      refine (hasFDerivAt_const ((1 : Matrix (Fin n) (Fin n) ℝ) i j) t0).congr_of_eventuallyEq ?_
      filter_upwards [hev] with t ht
      rw [← Matrix.nonsing_inv_mul (A t) (isUnit_iff_ne_zero.2 ht), Matrix.mul_apply]
    exact h1.unique h2
  refine (hB i j).congr_fderiv ?_
  ext u
  let Bu : Matrix (Fin n) (Fin n) ℝ := Matrix.of fun i j => B' i j u
  let Au : Matrix (Fin n) (Fin n) ℝ := Matrix.of fun i j => A' i j u
  have hmat : (A t0)⁻¹ * Au + Bu * A t0 = 0 := by
    ext i j
    have := congrArg (fun L : E →L[ℝ] ℝ => L u) (hprod i j)
    simp [_root_.sum_apply] at this
    simp only [Matrix.add_apply, Matrix.mul_apply, Matrix.zero_apply, Bu, Au, Matrix.of_apply, ← Finset.sum_add_distrib]
    rw [← this]
    exact Finset.sum_congr rfl fun k _ => by ring
  have hBu : Bu = -((A t0)⁻¹ * Au * (A t0)⁻¹) := by
    have h1 : Bu * A t0 = -((A t0)⁻¹ * Au) := by rw [← sub_eq_zero, sub_neg_eq_add, add_comm, hmat]
    have h2 := congrArg (· * (A t0)⁻¹) h1
    simpa [Matrix.mul_assoc, Matrix.mul_nonsing_inv _ (isUnit_iff_ne_zero.2 hd)] using h2
  have h3 : B' i j u = Bu i j := rfl
  rw [h3, hBu]
  simp [Matrix.mul_apply, _root_.sum_apply, Finset.sum_mul, Au]
  rw [Finset.sum_comm]
  exact Finset.sum_congr rfl fun k _ => Finset.sum_congr rfl fun l _ => by ring

/-- derivative of the logarithm of a positive determinant -/
theorem hasFDerivAt_logDet {A : E → Matrix (Fin n) (Fin n) ℝ} {A' : Fin n → Fin n → E →L[ℝ] ℝ} {t0 : E} (h : ∀ i j, HasFDerivAt (fun t => A t i j) (A' i j) t0)
    (hd : (A t0).det ≠ 0) : HasFDerivAt (fun t => Real.log (A t).det) (∑ i, ∑ j, (A t0)⁻¹ j i • A' i j) t0 := by
  refine ((hasFDerivAt_det h).log hd).congr_fderiv ?_
  simp only [Finset.smul_sum, smul_smul]
  refine Finset.sum_congr rfl fun i _ => Finset.sum_congr rfl fun j _ => ?_
  simp [Matrix.inv_def, Ring.inverse_eq_inv']

/-- derivative of a quadratic form of an inverse symmetric matrix -/
theorem hasFDerivAt_quad {A : E → Matrix (Fin n) (Fin n) ℝ} {A' : Fin n → Fin n → E →L[ℝ] ℝ} {d : E → Fin n → ℝ} {d' : Fin n → E →L[ℝ] ℝ} {t0 : E}
    (h : ∀ i j, HasFDerivAt (fun t => A t i j) (A' i j) t0) (hd : ∀ i, HasFDerivAt (fun t => d t i) (d' i) t0) (hdet : (A t0).det ≠ 0) (hs : (A t0).IsSymm) :
    HasFDerivAt (fun t => dotProduct (d t) ((A t)⁻¹.mulVec (d t)))
      ((∑ i, (2 * (A t0)⁻¹.mulVec (d t0) i) • d' i) - ∑ k, ∑ l, ((A t0)⁻¹.mulVec (d t0) k * (A t0)⁻¹.mulVec (d t0) l) • A' k l) t0 := by
  have hB := fun i j => hasFDerivAt_matInv h hdet i j
  have h1 : HasFDerivAt (fun t => ∑ i, d t i * ∑ j, (A t)⁻¹ i j * d t j) _ t0 :=
    HasFDerivAt.fun_sum fun i _ => (hd i).mul (HasFDerivAt.fun_sum fun j _ => (hB i j).mul (hd j))
  refine (h1.congr_fderiv ?_).congr_of_eventuallyEq (.of_forall fun t => by simp [dotProduct, Matrix.mulVec])
  have hsy : ∀ i j, (A t0)⁻¹ i j = (A t0)⁻¹ j i := fun i j => by
    have : (A t0)⁻¹.transpose = (A t0)⁻¹ := by rw [Matrix.transpose_nonsing_inv, hs.eq]
    conv_lhs => rw [← this, Matrix.transpose_apply]
  ext u
  let B := (A t0)⁻¹
  let z := B.mulVec (d t0)
  have hz : ∀ i, ∑ j, B i j * d t0 j = z i := fun i => rfl
  have hz' : ∀ j, ∑ i, d t0 i * B i j = z j := fun j => by
    rw [← hz j]
    exact Finset.sum_congr rfl fun i _ => by rw [show B j i = B i j from hsy j i, mul_comm]
  simp only [_root_.sum_apply, _root_.smul_apply, _root_.add_apply, _root_.sub_apply, _root_.neg_apply, smul_eq_mul]
  show ∑ i, (d t0 i * ∑ j, (B i j * (d' j) u + d t0 j * -∑ k, ∑ l, B i k * B l j * (A' k l) u) + (∑ j, B i j * d t0 j) * (d' i) u) =
    ∑ i, 2 * z i * (d' i) u - ∑ k, ∑ l, z k * z l * (A' k l) u
  have e1 : ∑ i, d t0 i * ∑ j, B i j * (d' j) u = ∑ j, z j * (d' j) u := by
    simp only [Finset.mul_sum]
    rw [Finset.sum_comm]
    refine Finset.sum_congr rfl fun j _ => ?_
    rw [← hz', Finset.sum_mul]
    exact Finset.sum_congr rfl fun i _ => by ring
  have e2 : ∑ i, d t0 i * ∑ j, d t0 j * ∑ k, ∑ l, B i k * B l j * (A' k l) u = ∑ k, ∑ l, z k * z l * (A' k l) u := by
    have : ∀ k l, z k * z l * (A' k l) u = ∑ i, ∑ j, d t0 i * (d t0 j * (B i k * B l j * (A' k l) u)) := by
      intro k l
      rw [← hz' k, ← hz l, Finset.sum_mul_sum, Finset.sum_mul]
      refine Finset.sum_congr rfl fun i _ => ?_
      rw [Finset.sum_mul]
      exact Finset.sum_congr rfl fun j _ => by ring
    simp only [this, Finset.mul_sum]
    calc ∑ i, ∑ j, ∑ k, ∑ l, d t0 i * (d t0 j * (B i k * B l j * (A' k l) u))
        = ∑ i, ∑ k, ∑ j, ∑ l, d t0 i * (d t0 j * (B i k * B l j * (A' k l) u)) := Finset.sum_congr rfl fun i _ => Finset.sum_comm
      _ = ∑ k, ∑ i, ∑ j, ∑ l, d t0 i * (d t0 j * (B i k * B l j * (A' k l) u)) := Finset.sum_comm
      _ = ∑ k, ∑ i, ∑ l, ∑ j, d t0 i * (d t0 j * (B i k * B l j * (A' k l) u)) := Finset.sum_congr rfl fun k _ => Finset.sum_congr rfl fun i _ => Finset.sum_comm
      _ = ∑ k, ∑ l, ∑ i, ∑ j, d t0 i * (d t0 j * (B i k * B l j * (A' k l) u)) := Finset.sum_congr rfl fun k _ => Finset.sum_comm
  simp only [Finset.sum_add_distrib, mul_add, mul_neg, Finset.sum_neg_distrib, e1, e2, hz, mul_assoc (2 : ℝ), ← Finset.mul_sum]
  ring

end

/-! ### Multivariate normal -/

variable [HasInf ℝ] [LinAlg ℝ]

theorem sym_trunc {n : ℕ} {f : ℕ → ℝ} (h : (toMat n f).IsSymm) : symMat n (trunc (n * n) f) = toMat n f := by
  rw [symMat_eq _ _ (by rw [toMat_trunc]; exact h), toMat_trunc]

theorem llt_iff [LawfulLinAlg] {n : ℕ} {f : ℕ → ℝ} (h : (toMat n f).IsSymm) : LinAlg.lltOk n (trunc (n * n) f) = true ↔ (toMat n f).PosDef := by
  rw [LawfulLinAlg.lltOk_iff, sym_trunc h]

theorem llt_log [LawfulLinAlg] {n : ℕ} {f : ℕ → ℝ} (h : (toMat n f).IsSymm) (hp : (toMat n f).PosDef) :
    Fn.log (LinAlg.lltDetL n (trunc (n * n) f)) = 1 / 2 * Real.log (toMat n f).det := by
  have hok := (llt_iff h).2 hp
  have h1 := LawfulLinAlg.lltDetL_sq n _ hok
  rw [sym_trunc h] at h1
  have h2 := (LawfulLinAlg.lltDetL_pos n _ hok).ne'
  rw [← h1, Real.log_mul h2 h2]
  show Real.log _ = _
  ring

theorem llt_inv [LawfulLinAlg] {n : ℕ} {f : ℕ → ℝ} (h : (toMat n f).IsSymm) (hp : (toMat n f).PosDef) :
    toMat n (LinAlg.symInv n (trunc (n * n) f)) = (toMat n f)⁻¹ := by
  rw [LawfulLinAlg.symInv_eq n _ (.inr ((llt_iff h).2 hp)) (by rw [sym_trunc h]; exact hp.det_pos.ne'), sym_trunc h]

theorem mvNormalLog_eq {sm : Bool} {n : ℕ} {v : Args ℝ} (h : (toMat n v.b).PosDef) :
    mvNormalLog sm n v = -(1 / 2) * dotProduct (fun i : Fin n => v.x i - v.a (pidx sm i)) ((toMat n v.b)⁻¹.mulVec fun i => v.x i - v.a (pidx sm i)) -
      1 / 2 * Real.log (toMat n v.b).det := by
  have hd := h.det_pos
  rw [mvNormalLog, mvNormalKernel, Real.log_div (Real.exp_ne_zero _) (Real.sqrt_pos.2 hd).ne', Real.log_exp, Real.log_sqrt hd.le]
  have : ((fun i : Fin n => v.x i) - fun i : Fin n => v.a (pidx sm i)) = fun i : Fin n => v.x i - v.a (pidx sm i) := rfl
  rw [this]
  ring

theorem mat_range {M : Type*} [AddCommMonoid M] (n : ℕ) (F : ℕ → M) : ∑ i ∈ Finset.range n, F i = ∑ i : Fin n, F i := Finset.sum_range F

theorem mvNormal_alg {n : ℕ} (z : Fin n → ℝ) (IV G : Fin n → Fin n → ℝ) (dx da : Fin n → ℝ) :
    -(1 / 2) * (∑ i, 2 * z i * (dx i - da i) - ∑ i, ∑ j, z i * z j * G i j) - 1 / 2 * ∑ i, ∑ j, IV i j * G i j =
      ∑ i, -z i * dx i + ∑ i, z i * da i + ∑ i, ∑ j, 1 / 2 * (z i * z j - IV i j) * G i j := by
  have h1 : ∑ i, 2 * z i * (dx i - da i) = 2 * (∑ i, z i * dx i - ∑ i, z i * da i) := by
    rw [← Finset.sum_sub_distrib, Finset.mul_sum]
    exact Finset.sum_congr rfl fun i _ => by ring
  have h2 : ∑ i, ∑ j, 1 / 2 * (z i * z j - IV i j) * G i j = 1 / 2 * (∑ i, ∑ j, z i * z j * G i j - ∑ i, ∑ j, IV i j * G i j) := by
    simp only [← Finset.sum_sub_distrib, Finset.mul_sum]
    exact Finset.sum_congr rfl fun i _ => Finset.sum_congr rfl fun j _ => by ring
  simp only [h1, h2, neg_mul, Finset.sum_neg_distrib]
  ring

/-- gradient of the multivariate normal log-density -/
theorem mvNormal_gradient {k : Kinds} {sm : Bool} {n : ℕ} {v : Args ℝ} {seed : ℝ} {calls : List (Slot × (ℕ → ℝ))} (hp : (toMat n v.b).PosDef) {z : ℕ → ℝ} {inv : ℕ → ℝ}
    (hz : ∀ i : Fin n, z i = (toMat n v.b)⁻¹.mulVec (fun i => v.x i - v.a (pidx sm i)) i) (hinv : toMat n inv = (toMat n v.b)⁻¹)
    (hx : ∀ i < n, seedOf calls .x i = seed * -z i)
    (ha0 : sm = true → seedOf calls .a 0 = seed * ∑ i ∈ Finset.range n, z i)
    (ha1 : sm = false → ∀ i < n, seedOf calls .a i = seed * z i)
    (hb : k.b ≠ .const → ∀ i j : Fin n, seedOf calls .b (i.1 + j.1 * n) = seed * (1 / 2 * (z i * z j - inv (i.1 + j.1 * n)))) :
    SeedGradient k (mdim sm n) (SigmaSymm n) (orNegInf (fun v => (toMat n v.b).PosDef) (mvNormalLog sm n)) v seed calls := by
  intro E _ _ V D t0 h0 hA hD hc
  subst h0
  have hAd : ∀ i j : Fin n, HasFDerivAt (fun t => toMat n (V t).b i j) (D .b (i.1 + j.1 * n)) t0 := fun i j => hD .b _ (by
    have := i.2; have := j.2; show i.1 + j.1 * n < n * n; nlinarith)
  have hdd : ∀ i : Fin n, HasFDerivAt (fun t => (V t).x i - (V t).a (pidx sm i)) (D .x i - D .a (pidx sm i)) t0 := fun i =>
    (hD .x i i.2).sub (hD .a _ (pidx_lt i.2))
  have hdet := hp.det_pos.ne'
  have hsym := hA t0
  have ev := posDef_open (fun i j => (hAd i j).continuousAt) hA hp
  have h1 := ((hasFDerivAt_quad hAd hdd hdet hsym).const_mul (-(1 / 2))).sub ((hasFDerivAt_logDet hAd hdet).const_mul (1 / 2))
  refine ((h1.const_mul seed).congr_fderiv ?_).congr_of_eventuallyEq ?_
  · have hsy : ∀ i j : Fin n, (toMat n (V t0).b)⁻¹ j i = inv (i.1 + j.1 * n) := fun i j => by
      have : (toMat n (V t0).b)⁻¹.transpose = (toMat n (V t0).b)⁻¹ := by rw [Matrix.transpose_nonsing_inv, hsym.eq]
      rw [← Matrix.transpose_apply ((toMat n (V t0).b)⁻¹) i j, this, ← hinv]; rfl
    have hbsum : ∑ i ∈ Finset.range (n * n), seedOf calls .b i • D .b i =
        seed • ∑ i : Fin n, ∑ j : Fin n, (1 / 2 * (z i * z j - inv (i.1 + j.1 * n))) • D .b (i.1 + j.1 * n) := by
      rw [sum_mat]
      simp only [Finset.smul_sum]
      refine Finset.sum_congr rfl fun i _ => Finset.sum_congr rfl fun j _ => ?_
      by_cases hk : k.b = .const
      · rw [(hc .b hk (i.1 + j.1 * n) (by have := i.2; have := j.2; show i.1 + j.1 * n < n * n; nlinarith)).1]; simp
      · rw [hb hk, smul_smul]
    have hxsum : ∑ i ∈ Finset.range n, seedOf calls .x i • D .x i = seed • ∑ i ∈ Finset.range n, (-z i) • D .x i := by
      rw [Finset.smul_sum]
      exact Finset.sum_congr rfl fun i hi => by rw [hx i (Finset.mem_range.1 hi), mul_smul]
    show _ = ∑ i ∈ Finset.range n, seedOf calls .x i • D .x i + ∑ i ∈ Finset.range (pdim sm n), seedOf calls .a i • D .a i +
      ∑ i ∈ Finset.range (n * n), seedOf calls .b i • D .b i
    rw [hbsum, hxsum, chain_param seed sm n _ z (D .a) ha0 ha1, ← smul_add, ← smul_add, mat_range, mat_range]
    congr 1
    simp only [← hz, hsy]
    ext u
    simp only [_root_.sum_apply, _root_.smul_apply, _root_.add_apply, _root_.sub_apply, smul_eq_mul]
    exact mvNormal_alg (fun i : Fin n => z i) (fun i j => inv (i.1 + j.1 * n)) (fun i j => D .b (i.1 + j.1 * n) u) (fun i => D .x i u) fun i => D .a (pidx sm i) u
  · filter_upwards [ev] with t ht
    rw [orNegInf_pos ht, mvNormalLog_eq ht]
    rfl

theorem normalMat_computes [LawfulLinAlg] (sm : Bool) (k : Kinds) (n : ℕ) : Computes (normalMat sm k n) k (mdim sm n) (SigmaSymm n) (fun _ _ => True)
    (fun v => (toMat n v.b).PosDef) (fun _ => True) (mvNormalLog sm n) fun _ => True := by
  have up : ∀ (c : NormalMatCache ℝ) (v : Args ℝ), SigmaSymm n v → (toMat n v.b).PosDef → (c.update n v.b).posDef = true ∧
      (c.update n v.b).logDet = 1 / 2 * Real.log (toMat n v.b).det ∧ toMat n (c.update n v.b).inv = (toMat n v.b)⁻¹ := by
    intro c v hs hp
    rw [NormalMatCache.update, if_pos ((llt_iff hs).2 hp)]
    exact ⟨rfl, llt_log hs hp, llt_inv hs hp⟩
  have un : ∀ (c : NormalMatCache ℝ) (v : Args ℝ), SigmaSymm n v → ¬ (toMat n v.b).PosDef → (c.update n v.b).posDef = false := by
    intro c v hs hp
    rw [NormalMatCache.update, if_neg fun h => hp ((llt_iff hs).1 h)]
  refine computes_of (fun _ _ => True) (by simp) (fun v0 (c : NormalMatCache ℝ) => k.b = .const →
    ((toMat n v0.b).PosDef → c.posDef = true ∧ c.logDet = 1 / 2 * Real.log (toMat n v0.b).det ∧ toMat n c.inv = (toMat n v0.b)⁻¹) ∧
    (¬ (toMat n v0.b).PosDef → c.posDef = false)) ?_ ?_ ?_
  · intro v0 hs
    refine ⟨_, rfl, fun hk => ?_⟩
    simp only [isConst_iff.2 hk, if_true]
    exact ⟨up _ v0 hs, un _ v0 hs⟩
  · intro v0 (c : NormalMatCache ℝ) v hI hs hc _ hok
    obtain ⟨c1, e1, p1, p2, p3⟩ : ∃ c1 : NormalMatCache ℝ, c1 = (if k.b.isConst then c else c.update n v.b) ∧
        c1.posDef = true ∧ c1.logDet = 1 / 2 * Real.log (toMat n v.b).det ∧ toMat n c1.inv = (toMat n v.b)⁻¹ := by
      refine ⟨_, rfl, ?_⟩
      by_cases hk : k.b = .const
      · rw [isConst_iff.2 hk, if_pos rfl, show v.b = v0.b from hc .b hk]
        exact (hI hk).1 (by rw [← show v.b = v0.b from hc .b hk]; exact hok)
      · rw [isConst_false hk, if_neg (by simp)]
        exact up c v hs hok
    obtain ⟨z, ez, hz⟩ : ∃ z : ℕ → ℝ, z = (fun i => sumN n fun j => c1.inv (i + j * n) * (v.x j - v.a (if sm then 0 else j))) ∧
        ∀ i : Fin n, z i = (toMat n v.b)⁻¹.mulVec (fun i => v.x i - v.a (pidx sm i)) i := by
      refine ⟨_, rfl, fun i => ?_⟩
      rw [← p3, sumN_eq, mat_range]
      rfl
    refine ⟨{ c1 with z := z }, ?_, fun hk => ⟨fun _ => ?_, fun h => ?_⟩, by simp [normalMat, beq_self], fun seed h0 _ _ => ?_⟩
    · simp only [normalMat, ← e1, p1, Bool.true_eq_false, if_false, ret, ← ez]
      rw [mvNormalLog_eq hok, p2, half_eq, sumN_eq, mat_range]
      refine congrArg some (Prod.ext rfl ?_)
      show -(1 / 2) * _ - _ = -(1 / 2) * _ - _
      congr 2
      exact Finset.sum_congr rfl fun i _ => by
        rw [← hz i, ez]
        rfl
    · rw [← show v.b = v0.b from hc .b hk]; exact ⟨p1, p2, p3⟩
    · exact absurd (by rw [← show v.b = v0.b from hc .b hk]; exact hok) h
    · simp only [normalMat, seed_ne h0, p1, Bool.not_true, Bool.or_self, Bool.false_eq_true, if_false]
      refine mvNormal_gradient hok hz p3 (fun i hi => ?_) ?_ ?_ ?_
      · split <;> simp [seedOf]
      · rintro rfl
        rw [← sumN_eq]
        split <;> simp [seedOf]
      · rintro rfl i hi
        split <;> simp [seedOf]
      · intro hk i j
        rw [isConst_false hk]
        simp [seedOf, mod_idx i.2, div_idx i.2, half_eq]
        ring
  · intro v0 (c : NormalMatCache ℝ) v hI hs hc _ hok
    obtain ⟨c1, e1, p1⟩ : ∃ c1 : NormalMatCache ℝ, c1 = (if k.b.isConst then c else c.update n v.b) ∧ c1.posDef = false := by
      refine ⟨_, rfl, ?_⟩
      by_cases hk : k.b = .const
      · rw [isConst_iff.2 hk, if_pos rfl]
        exact (hI hk).2 (by rw [← show v.b = v0.b from hc .b hk]; exact hok)
      · rw [isConst_false hk, if_neg (by simp)]
        exact un c v hs hok
    refine ⟨c1, by simp only [normalMat, ← e1, p1, if_true, ret], fun hk => ⟨fun h => ?_, fun _ => p1⟩, fun seed => by
      simp only [normalMat, p1, Bool.not_false, Bool.or_true, if_true]⟩
    exact absurd (by rw [show v.b = v0.b from hc .b hk]; exact h) hok

end

end FastAD
