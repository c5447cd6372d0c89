import Verif.Spec.Rounded
import Verif.Proof.Converge
import Mathlib.Algebra.Order.Floor.Ring
import Mathlib.Analysis.SpecificLimits.Basic

/-!
# Arithmetics with smaller and smaller rounding errors become exact
-/

open Filter Topology

namespace FastAD

variable {ι : Type} {φ : Filter ι}

theorem rnd_tendsto {r : ι → ℝ → ℝ} {ε : ι → ℝ} (hr : ∀ K, ∀ᶠ p in φ, ∀ x, |x| ≤ K → |r p x - x| ≤ ε p * (1 + |x|)) (hε : Tendsto ε φ (𝓝 0)) {x : ℝ} {a : ι → ℝ}
    (ha : Tendsto a φ (𝓝 x)) : Tendsto (fun p => r p (a p)) φ (𝓝 x) := by
  have h1 : Tendsto (fun p => ε p * (1 + |a p|)) φ (𝓝 0) := by
    have := hε.mul ((tendsto_const_nhds (x := (1 : ℝ))).add ha.abs)
    rwa [zero_mul] at this
  have h2 : Tendsto (fun p => r p (a p) - a p) φ (𝓝 0) :=
    squeeze_zero_norm' (by
      filter_upwards [hr (|x| + 1), (ha.abs).eventually_lt_const (lt_add_one |x|)] with p h2 h3
      rw [Real.norm_eq_abs]
      exact h2 _ h3.le) h1
  have := h2.add ha
  simpa using this

theorem rounded_faithful {r : ι → ℝ → ℝ} {ε : ι → ℝ} (hr : ∀ K, ∀ᶠ p in φ, ∀ x, |x| ≤ K → |r p x - x| ≤ ε p * (1 + |x|)) (hε : Tendsto ε φ (𝓝 0)) :
    Faithful φ (fun p => Rounded (r p)) (fun _ a => a.v) := by
  have h := fun {x : ℝ} {a : ι → ℝ} (ha : Tendsto a φ (𝓝 x)) => rnd_tendsto hr hε ha
  exact
  { zero := tendsto_const_nhds
    one := tendsto_const_nhds
    nat := fun n => h tendsto_const_nhds
    int := fun n => h tendsto_const_nhds
    add := fun ha hb => h (ha.add hb)
    sub := fun ha hb => h (ha.sub hb)
    mul := fun ha hb => h (ha.mul hb)
    neg := fun ha => ha.neg
    div := fun hy ha hb => h (ha.div hb hy)
    sin := fun ha => h ((faithful_real φ).sin ha)
    cos := fun ha => h ((faithful_real φ).cos ha)
    tan := fun h0 ha => h ((faithful_real φ).tan h0 ha)
    asin := fun h0 h1 ha => h ((faithful_real φ).asin h0 h1 ha)
    acos := fun h0 h1 ha => h ((faithful_real φ).acos h0 h1 ha)
    atan := fun ha => h ((faithful_real φ).atan ha)
    exp := fun ha => h ((faithful_real φ).exp ha)
    log := fun h0 ha => h ((faithful_real φ).log h0 ha)
    sqrt := fun h0 ha => h ((faithful_real φ).sqrt h0 ha)
    erf := fun ha => h ((faithful_real φ).erf ha)
    sinh := fun ha => h ((faithful_real φ).sinh ha)
    cosh := fun ha => h ((faithful_real φ).cosh ha)
    tanh := fun ha => h ((faithful_real φ).tanh ha)
    ipow := fun h0 ha => h ((faithful_real φ).ipow h0 ha)
    twoOverSqrtPi := h tendsto_const_nhds
    cmp := fun {x y a b} hxy ha hb => by
      filter_upwards [Tendsto.eventually_lt ha hb hxy] with p hp
      simp [Fn.blt, Fn.ble, Fn.beq, hp, hp.le, hp.ne, hp.ne', not_lt.2 hp.le]
    bools := fun p => by
      constructor <;> simp [Fn.blt, Fn.beq, show (0 : Rounded (r p)).v = 0 from rfl, show (1 : Rounded (r p)).v = 1 from rfl] }

/-- rounding down to a multiple of `2^-p` -/
noncomputable def grid (p : ℕ) (x : ℝ) : ℝ := ⌊x * 2 ^ p⌋ / 2 ^ p

theorem grid_err (p : ℕ) (x : ℝ) : |grid p x - x| ≤ (1 / 2 : ℝ) ^ p * (1 + |x|) := by
  have h2 : (0 : ℝ) < 2 ^ p := by positivity
  have h1 : |grid p x - x| ≤ (1 / 2 : ℝ) ^ p := by
    have e1 : grid p x - x = (⌊x * 2 ^ p⌋ - x * 2 ^ p) / 2 ^ p := by rw [grid]; field_simp
    rw [e1, abs_div, abs_of_pos h2, one_div, inv_pow, ← one_div]
    refine div_le_div_of_nonneg_right ?_ h2.le
    rw [abs_le]
    have a1 := Int.floor_le (x * 2 ^ p)
    have a2 := Int.lt_floor_add_one (x * 2 ^ p)
    constructor <;> linarith
  have h3 : (0 : ℝ) ≤ (1 / 2 : ℝ) ^ p * |x| := by positivity
  nlinarith

theorem grid_errs (K : ℝ) : ∀ᶠ p in atTop, ∀ x, |x| ≤ K → |grid p x - x| ≤ (1 / 2 : ℝ) ^ p * (1 + |x|) := .of_forall fun p x _ => grid_err p x

/-- the error of rounding to floating-point numbers -/
theorem float_err (p : ℕ) {lo hi : ℤ} (hlo : lo ≤ 0) {x : ℝ} (hx : |x| < 2 ^ (hi + 1)) : |Rounded.float p lo hi x - x| ≤ (1 / 2 : ℝ) ^ (p + 1) * (1 + |x|) := by
  rw [Rounded.float, if_pos hx]
  set e := max (Int.log 2 |x|) lo with he
  have hu : (0 : ℝ) < 2 ^ (e - p) := by positivity
  have h1 : |round (x / 2 ^ (e - p)) * (2 : ℝ) ^ (e - p) - x| ≤ 2 ^ (e - p) / 2 := by
    have h2 := abs_sub_round (x / 2 ^ (e - p) : ℝ)
    have h3 : round (x / 2 ^ (e - p)) * (2 : ℝ) ^ (e - p) - x = -(x / 2 ^ (e - p) - round (x / 2 ^ (e - p))) * 2 ^ (e - p) := by field_simp; ring
    rw [h3, abs_mul, abs_neg, abs_of_pos hu]
    nlinarith
  have h4 : (2 : ℝ) ^ e ≤ 1 + |x| := by
    rcases le_total (Int.log 2 |x|) lo with h | h
    · rw [he, max_eq_right h]
      have : (2 : ℝ) ^ lo ≤ 2 ^ (0 : ℤ) := zpow_le_zpow_right₀ (by norm_num) hlo
      simp only [zpow_zero] at this
      have := abs_nonneg x
      linarith
    · rw [he, max_eq_left h]
      by_cases h0 : x = 0
      · simp [h0]
      · have := Int.zpow_log_le_self (b := 2) (by norm_num) (abs_pos.2 h0)
        simp only [Nat.cast_ofNat] at this
        linarith
  have h5 : (2 : ℝ) ^ (e - p) / 2 = (1 / 2 : ℝ) ^ (p + 1) * 2 ^ e := by
    rw [zpow_sub₀ (by norm_num), zpow_natCast, pow_succ]
    field_simp
    rw [one_div, inv_pow]
    field_simp
  rw [h5] at h1
  exact h1.trans (mul_le_mul_of_nonneg_left h4 (by positivity))

theorem half_pow_tendsto : Tendsto (fun p : ℕ => (1 / 2 : ℝ) ^ p) atTop (𝓝 0) :=
  tendsto_pow_atTop_nhds_zero_of_lt_one (by norm_num) (by norm_num)

end FastAD
