import Verif.Spec.BlackScholes
import Verif.Proof.Deriv

/-!
# The Black-Scholes formula
-/

open ProbabilityTheory MeasureTheory

namespace FastAD

namespace BlackScholes

noncomputable section

/-- density of the standard normal distribution -/
abbrev phi (x : ℝ) : ℝ := gaussianPDFReal 0 1 x

theorem phi_eq (x : ℝ) : phi x = (√(2 * Real.pi))⁻¹ * Real.exp (-x ^ 2 / 2) := by
  simp [phi, gaussianPDFReal]

theorem gauss_real (μ : ℝ) (A : Set ℝ) : (gaussianReal μ 1).real A = ∫ x in A, gaussianPDFReal μ 1 x := by
  rw [measureReal_def, gaussianReal_apply_eq_integral μ one_ne_zero, ENNReal.toReal_ofReal]
  exact setIntegral_nonneg_of_ae_restrict (Filter.Eventually.of_forall fun x => gaussianPDFReal_nonneg _ _ _)

theorem Phi_neg (x : ℝ) : (gaussianReal 0 1).real (Set.Ioi x) = Phi (-x) := by
  have h := gaussianReal_map_neg (μ := 0) (v := 1)
  rw [neg_zero] at h
  have : (gaussianReal 0 1).real (Set.Ici x) = (gaussianReal 0 1).real (Set.Iic (-x)) := by
    conv_rhs => rw [← h]
    rw [map_measureReal_apply measurable_neg measurableSet_Iic]
    congr 1
    ext y; simp
  rw [Phi, ← this]
  have hn : NullSingletonClass (gaussianReal 0 1) := nullSingletonClass_gaussianReal one_ne_zero
  rw [measureReal_def, measureReal_def, measure_congr Ioi_ae_eq_Ici]

theorem Phi_compl (x : ℝ) : Phi (-x) = 1 - Phi x := by
  rw [← Phi_neg, ← Set.compl_Iic, probReal_compl_eq_one_sub measurableSet_Iic]
  rfl

theorem Phi_erf (x : ℝ) : Phi x = 0.5 * (realErf (x / √2) + 1) := by
  have h0 : Phi 0 = 1 / 2 := by
    have := Phi_compl 0
    rw [neg_zero] at this
    linarith
  have hi := integrable_gaussianPDFReal 0 1
  have h1 : Phi x - Phi 0 = ∫ t in (0 : ℝ)..x, phi t := by
    rw [Phi, Phi, gauss_real, gauss_real, intervalIntegral.integral_Iic_sub_Iic hi.integrableOn hi.integrableOn]
  have h2 : ∫ t in (0 : ℝ)..x, phi t = 0.5 * realErf (x / √2) := by
    have e : ∀ t : ℝ, phi t = (√(2 * Real.pi))⁻¹ * Real.exp (-(t / √2) * (t / √2)) := by
      intro t
      rw [phi_eq]
      congr 2
      rw [neg_mul, div_mul_div_comm, Real.mul_self_sqrt (by norm_num)]
      ring
    simp only [e]
    rw [intervalIntegral.integral_const_mul, intervalIntegral.integral_comp_div (fun t => Real.exp (-t * t)) (by positivity : √(2 : ℝ) ≠ 0), realErf, zero_div, smul_eq_mul,
      Real.sqrt_mul (by norm_num)]
    have : √Real.pi ≠ 0 := by positivity
    field_simp
    norm_num
    ring
  rw [h2, h0] at h1
  linarith

theorem hasDerivAt_Phi (x : ℝ) : HasDerivAt Phi (phi x) x := by
  have e : Phi = fun x => 0.5 * (realErf (x / √2) + 1) := funext Phi_erf
  rw [e]
  have := (((hasDerivAt_realErf (x / √2)).comp x ((hasDerivAt_id' x).div_const (√2))).add_const 1).const_mul 0.5
  convert! this using 1
  rw [phi_eq, Real.sqrt_mul (by norm_num), neg_mul, div_mul_div_comm, Real.mul_self_sqrt (by norm_num)]
  have : √Real.pi ≠ 0 := by positivity
  field_simp
  norm_num

variable {S K σ τ r : ℝ}

/-- the shifted density -/
theorem phi_shift (b z : ℝ) : Real.exp (b * z - b ^ 2 / 2) * phi z = gaussianPDFReal b 1 z := by
  rw [phi_eq, mul_left_comm, ← Real.exp_add, gaussianPDFReal]
  have : b * z - b ^ 2 / 2 + -z ^ 2 / 2 = -(z - b) ^ 2 / (2 * ((1 : NNReal) : ℝ)) := by
    push_cast; ring
  rw [this]
  simp

theorem future_phi (hτ : 0 < τ) (z : ℝ) : future S σ τ r z * phi z = S * Real.exp (r * τ) * gaussianPDFReal (σ * √τ) 1 z := by
  rw [← phi_shift, future]
  have : (r - σ ^ 2 / 2) * τ + σ * √τ * z = r * τ + (σ * √τ * z - (σ * √τ) ^ 2 / 2) := by
    rw [mul_pow, Real.sq_sqrt hτ.le]; ring
  rw [this, Real.exp_add]
  ring

theorem future_gt (hS : 0 < S) (hK : 0 < K) (hσ : 0 < σ) (hτ : 0 < τ) (z : ℝ) : K < future S σ τ r z ↔ -(d1 S K σ τ r - σ * √τ) < z := by
  have hp : 0 < σ * √τ := by positivity
  have : K < future S σ τ r z ↔ Real.log (K / S) < (r - σ ^ 2 / 2) * τ + σ * √τ * z := by
    rw [future, ← div_lt_iff₀' hS, Real.log_lt_iff_lt_exp (by positivity)]
  rw [this, d1, Real.log_div hK.ne' hS.ne', Real.log_div hS.ne' hK.ne']
  have e : -((Real.log S - Real.log K + (r + σ ^ 2 / 2) * τ) / (σ * √τ) - σ * √τ) = (Real.log K - Real.log S - (r - σ ^ 2 / 2) * τ) / (σ * √τ) := by
    rw [neg_sub, sub_eq_iff_eq_add, ← add_div, eq_div_iff hp.ne']
    have : σ * √τ * (σ * √τ) = σ ^ 2 * τ := by
      rw [mul_mul_mul_comm, Real.mul_self_sqrt hτ.le]; ring
    rw [this]; ring
  rw [e, div_lt_iff₀ hp]
  constructor <;> intro h <;> nlinarith

theorem gauss_shift (b c : ℝ) : ∫ z in Set.Ioi c, gaussianPDFReal b 1 z = Phi (b - c) := by
  rw [← gauss_real, ← neg_sub c b, ← Phi_neg]
  have h := gaussianReal_map_add_const (μ := 0) (v := 1) b
  rw [zero_add] at h
  rw [← h, map_measureReal_apply (measurable_id'.add_const b) measurableSet_Ioi]
  congr 1
  ext y; simp [sub_lt_iff_lt_add]

theorem call_eq (hS : 0 < S) (hK : 0 < K) (hσ : 0 < σ) (hτ : 0 < τ) :
    call S K σ τ r = S * Phi (d1 S K σ τ r) - K * Real.exp (-r * τ) * Phi (d1 S K σ τ r - σ * √τ) := by
  rw [call, integral_gaussianReal_eq_integral_smul one_ne_zero]
  have e : ∀ z, gaussianPDFReal 0 1 z • max (future S σ τ r z - K) 0 =
      (Set.Ioi (-(d1 S K σ τ r - σ * √τ))).indicator (fun z => S * Real.exp (r * τ) * gaussianPDFReal (σ * √τ) 1 z - K * gaussianPDFReal 0 1 z) z := by
    intro z
    by_cases hz : K < future S σ τ r z
    · rw [Set.indicator_of_mem (Set.mem_Ioi.2 ((future_gt hS hK hσ hτ z).1 hz)), max_eq_left (by linarith), smul_eq_mul, ← future_phi hτ]
      ring
    · rw [Set.indicator_of_notMem (fun h => hz ((future_gt hS hK hσ hτ z).2 (Set.mem_Ioi.1 h))), max_eq_right (by linarith), smul_zero]
  simp only [e]
  rw [integral_indicator measurableSet_Ioi, integral_sub, integral_const_mul, integral_const_mul, gauss_shift, gauss_shift]
  · have : Real.exp (r * τ) * Real.exp (-r * τ) = 1 := by rw [← Real.exp_add]; simp
    have e1 : σ * √τ - -(d1 S K σ τ r - σ * √τ) = d1 S K σ τ r := by ring
    have e2 : 0 - -(d1 S K σ τ r - σ * √τ) = d1 S K σ τ r - σ * √τ := by ring
    rw [e1, e2]
    linear_combination (S * Phi (d1 S K σ τ r)) * this
  · exact ((integrable_gaussianPDFReal _ _).const_mul _).integrableOn
  · exact ((integrable_gaussianPDFReal _ _).const_mul _).integrableOn

theorem put_eq (hS : 0 < S) (hK : 0 < K) (hσ : 0 < σ) (hτ : 0 < τ) :
    put S K σ τ r = K * Real.exp (-r * τ) * Phi (-(d1 S K σ τ r - σ * √τ)) - S * Phi (-d1 S K σ τ r) := by
  rw [put, integral_gaussianReal_eq_integral_smul one_ne_zero]
  have e : ∀ z, gaussianPDFReal 0 1 z • max (K - future S σ τ r z) 0 =
      (Set.Iic (-(d1 S K σ τ r - σ * √τ))).indicator (fun z => K * gaussianPDFReal 0 1 z - S * Real.exp (r * τ) * gaussianPDFReal (σ * √τ) 1 z) z := by
    intro z
    by_cases hz : K < future S σ τ r z
    · rw [Set.indicator_of_notMem (by simpa using (future_gt hS hK hσ hτ z).1 hz), max_eq_right (by linarith), smul_zero]
    · rw [Set.indicator_of_mem (by
        have := fun h => hz ((future_gt hS hK hσ hτ z).2 h)
        simpa using this), max_eq_left (by linarith), smul_eq_mul, ← future_phi hτ]
      ring
  simp only [e]
  have hI : ∀ b c, ∫ z in Set.Iic c, gaussianPDFReal b 1 z = Phi (-(b - c)) := by
    intro b c
    rw [Phi_compl, ← gauss_shift, ← gauss_real, ← gauss_real, ← Set.compl_Iic, probReal_compl_eq_one_sub measurableSet_Iic]
    ring
  rw [integral_indicator measurableSet_Iic, integral_sub, integral_const_mul, integral_const_mul, hI, hI]
  · have : Real.exp (r * τ) * Real.exp (-r * τ) = 1 := by rw [← Real.exp_add]; simp
    have e1 : σ * √τ - -(d1 S K σ τ r - σ * √τ) = d1 S K σ τ r := by ring
    have e2 : 0 - -(d1 S K σ τ r - σ * √τ) = d1 S K σ τ r - σ * √τ := by ring
    rw [e1, e2]
    linear_combination (-S * Phi (-d1 S K σ τ r)) * this
  · exact ((integrable_gaussianPDFReal _ _).const_mul _).integrableOn
  · exact ((integrable_gaussianPDFReal _ _).const_mul _).integrableOn

theorem hasDerivAt_d1 (hS : 0 < S) (hK : 0 < K) : HasDerivAt (fun S => d1 S K σ τ r) (1 / S / (σ * √τ)) S := by
  have := (((hasDerivAt_id' S).div_const K).log (by positivity)).add_const ((r + σ ^ 2 / 2) * τ)
  convert! this.div_const (σ * √τ) using 1
  field_simp

/-- the identity that makes the delta simple -/
theorem phi_d1 (hS : 0 < S) (hK : 0 < K) (hσ : 0 < σ) (hτ : 0 < τ) :
    S * phi (d1 S K σ τ r) = K * Real.exp (-r * τ) * phi (d1 S K σ τ r - σ * √τ) := by
  have hp : 0 < σ * √τ := by positivity
  have hsq : (σ * √τ) ^ 2 = σ ^ 2 * τ := by rw [mul_pow, Real.sq_sqrt hτ.le]
  have hd : d1 S K σ τ r * (σ * √τ) = Real.log (S / K) + (r + σ ^ 2 / 2) * τ := by rw [d1, div_mul_cancel₀ _ hp.ne']
  have e : S = K * Real.exp (Real.log (S / K)) := by
    rw [Real.exp_log (by positivity)]; field_simp
  rw [phi_eq, phi_eq]
  conv_lhs => rw [e]
  rw [mul_assoc, mul_left_comm (Real.exp (Real.log (S / K))), mul_assoc K, mul_left_comm (Real.exp (-r * τ)), ← Real.exp_add, ← Real.exp_add]
  have : Real.log (S / K) = Real.log (S / K) := rfl
  congr 3
  rw [← e]
  nlinarith [hd, hsq]

theorem hasDerivAt_call (hS : 0 < S) (hK : 0 < K) (hσ : 0 < σ) (hτ : 0 < τ) :
    HasDerivAt (fun S => S * Phi (d1 S K σ τ r) - K * Real.exp (-r * τ) * Phi (d1 S K σ τ r - σ * √τ)) (Phi (d1 S K σ τ r)) S := by
  have h1 := hasDerivAt_d1 (σ := σ) (τ := τ) (r := r) hS hK
  have a := (hasDerivAt_id' S).mul ((hasDerivAt_Phi _).comp S h1)
  have b := ((hasDerivAt_Phi _).comp S (h1.sub_const (σ * √τ))).const_mul (K * Real.exp (-r * τ))
  convert! a.sub b using 1
  have := phi_d1 (r := r) hS hK hσ hτ
  simp only [Function.comp]
  linear_combination (-(1 / S / (σ * √τ))) * this

theorem hasDerivAt_put (hS : 0 < S) (hK : 0 < K) (hσ : 0 < σ) (hτ : 0 < τ) :
    HasDerivAt (fun S => K * Real.exp (-r * τ) * Phi (-(d1 S K σ τ r - σ * √τ)) - S * Phi (-d1 S K σ τ r)) (Phi (d1 S K σ τ r) - 1) S := by
  have e : (fun S => K * Real.exp (-r * τ) * Phi (-(d1 S K σ τ r - σ * √τ)) - S * Phi (-d1 S K σ τ r)) =
      fun S => (S * Phi (d1 S K σ τ r) - K * Real.exp (-r * τ) * Phi (d1 S K σ τ r - σ * √τ)) - S + K * Real.exp (-r * τ) := by
    funext S; rw [Phi_compl, Phi_compl]; ring
  rw [e]
  exact ((hasDerivAt_call hS hK hσ hτ).sub (hasDerivAt_id' S)).add_const _

end

end BlackScholes

end FastAD
