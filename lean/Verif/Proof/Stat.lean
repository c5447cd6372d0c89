import Verif.Spec.Stat
import Verif.Proof.Basic
import Mathlib.Analysis.SpecialFunctions.Log.Deriv
import Mathlib.Analysis.Calculus.FDeriv.Mul
import Mathlib.Analysis.Calculus.FDeriv.Pow
import Mathlib.Analysis.Calculus.FDeriv.Pi
import Mathlib.MeasureTheory.Measure.Lebesgue.Basic

/-!
# Log-density nodes: element-wise densities
-/

open scoped Real Topology
open ProbabilityTheory

namespace FastAD

noncomputable section

set_option linter.unusedSectionVars false

theorem normal_elem {s : ℝ} (hs : 0 < s) (m x : ℝ) :
    Real.log (gaussianPDFReal m (Real.toNNReal (s ^ 2)) x) + Real.log √(2 * π) = -(1 / 2) * ((x - m) / s) ^ 2 - Real.log s := by
  have h2 : (0 : ℝ) < √(2 * π) := Real.sqrt_pos.2 (by positivity)
  have h1 : √(2 * π * s ^ 2) = √(2 * π) * s := by rw [Real.sqrt_mul (by positivity), Real.sqrt_sq hs.le]
  rw [gaussianPDFReal, Real.coe_toNNReal _ (by positivity), h1, Real.log_mul (by positivity) (Real.exp_ne_zero _), Real.log_exp, Real.log_inv,
    Real.log_mul h2.ne' hs.ne']
  field_simp
  ring

theorem cauchy_elem {s : ℝ} (hs : 0 < s) (m x : ℝ) :
    Real.log (cauchyPDFReal m (Real.toNNReal s) x) + Real.log π = -Real.log (s + (x - m) ^ 2 / s) := by
  have h1 : 0 < (x - m) ^ 2 + s ^ 2 := by positivity
  rw [cauchyPDFReal, Real.coe_toNNReal _ hs.le, ← Real.log_mul (by positivity) (by positivity), ← Real.log_inv]
  congr 1
  have := Real.pi_pos
  field_simp
  ring

theorem uniform_elem {a b x : ℝ} (h1 : a < x) (h2 : x < b) :
    Real.log (MeasureTheory.pdf.uniformPDF (Set.Ioo a b) x).toReal = -Real.log (b - a) := by
  rw [MeasureTheory.pdf.uniformPDF_ite, if_pos ⟨h1, h2⟩, Real.volume_Ioo, ENNReal.toReal_inv, ENNReal.toReal_ofReal (by linarith), Real.log_inv]

section
variable {E : Type} [NormedAddCommGroup E] [NormedSpace ℝ E]

theorem normal_deriv {X A B : E → ℝ} {X' A' B' : E →L[ℝ] ℝ} {t : E} (hX : HasFDerivAt X X' t) (hA : HasFDerivAt A A' t) (hB : HasFDerivAt B B' t) (hb : 0 < B t) :
    HasFDerivAt (fun t => -(1 / 2) * ((X t - A t) / B t) ^ 2 - Real.log (B t))
      ((-(X t - A t) / B t ^ 2) • X' + ((X t - A t) / B t ^ 2) • A' + ((((X t - A t) / B t) ^ 2 - 1) / B t) • B') t := by
  have h1 := (hX.sub hA).mul ((hasDerivAt_inv hb.ne').comp_hasFDerivAt t hB)
  have h := ((h1.mul h1).const_mul (-(1 / 2))).sub (hB.log hb.ne')
  refine (h.congr_fderiv ?_).congr_of_eventuallyEq (.of_forall fun _ => by simp [div_eq_mul_inv, sq])
  ext u
  have := hb.ne'
  simp
  field_simp
  ring

theorem cauchy_deriv {X A B : E → ℝ} {X' A' B' : E →L[ℝ] ℝ} {t : E} (hX : HasFDerivAt X X' t) (hA : HasFDerivAt A A' t) (hB : HasFDerivAt B B' t) (hb : 0 < B t) :
    HasFDerivAt (fun t => -Real.log (B t + (X t - A t) ^ 2 / B t))
      ((-2 * (X t - A t) / (B t ^ 2 + (X t - A t) ^ 2)) • X' + (2 * (X t - A t) / (B t ^ 2 + (X t - A t) ^ 2)) • A' +
        ((2 * (X t - A t) ^ 2 / (B t ^ 2 + (X t - A t) ^ 2) - 1) / B t) • B') t := by
  have h1 := hB.add (((hX.sub hA).mul (hX.sub hA)).mul ((hasDerivAt_inv hb.ne').comp_hasFDerivAt t hB))
  have hp : 0 < B t + (X t - A t) * (X t - A t) * (B t)⁻¹ := by have := mul_self_nonneg (X t - A t); positivity
  have h := (h1.log (by simpa using hp.ne')).neg
  refine (h.congr_fderiv ?_).congr_of_eventuallyEq (.of_forall fun _ => by simp [div_eq_mul_inv, sq])
  ext u
  have h3 := hb.ne'
  have h4 : B t ^ 2 + (X t - A t) ^ 2 ≠ 0 := by positivity
  have h5 : B t + (X t - A t) * (X t - A t) * (B t)⁻¹ = (B t ^ 2 + (X t - A t) ^ 2) / B t := by field_simp
  simp
  rw [h5]
  field_simp
  ring

theorem uniform_deriv {A B : E → ℝ} {A' B' : E →L[ℝ] ℝ} {t : E} (hA : HasFDerivAt A A' t) (hB : HasFDerivAt B B' t) (hb : A t < B t) :
    HasFDerivAt (fun t => -Real.log (B t - A t)) ((1 / (B t - A t)) • A' + (-1 / (B t - A t)) • B') t := by
  have h : HasFDerivAt (fun t => -Real.log (B t - A t)) _ t := ((hB.sub hA).log (sub_pos.2 hb).ne').neg
  refine h.congr_fderiv ?_
  ext u
  have := (sub_pos.2 hb).ne'
  simp
  field_simp
  ring

end

/-! ### The chain rule -/

section
variable {E : Type} [NormedAddCommGroup E] [NormedSpace ℝ E]

theorem chain_param (c : ℝ) (sc : Bool) (n : ℕ) (g d : ℕ → ℝ) (D : ℕ → E →L[ℝ] ℝ) (h0 : sc = true → g 0 = c * ∑ i ∈ Finset.range n, d i)
    (h1 : sc = false → ∀ i < n, g i = c * d i) :
    ∑ i ∈ Finset.range (pdim sc n), g i • D i = c • ∑ i ∈ Finset.range n, d i • D (pidx sc i) := by
  cases sc
  · simp only [pdim, pidx, Bool.false_eq_true, if_false, Finset.smul_sum]
    refine Finset.sum_congr rfl fun i hi => ?_
    rw [h1 rfl i (Finset.mem_range.1 hi), mul_smul]
  · simp only [pdim, pidx, if_true, Finset.sum_range_one]
    rw [h0 rfl, ← Finset.sum_smul, mul_smul]

theorem chain_const (c : ℝ) (sc : Bool) (n : ℕ) (g d : ℕ → ℝ) (D : ℕ → E →L[ℝ] ℝ) (h : ∀ i < pdim sc n, D i = 0) :
    ∑ i ∈ Finset.range (pdim sc n), g i • D i = c • ∑ i ∈ Finset.range n, d i • D (pidx sc i) := by
  rw [Finset.sum_eq_zero fun i hi => by rw [h i (Finset.mem_range.1 hi), smul_zero], Finset.sum_eq_zero, smul_zero]
  intro i hi
  have hi := Finset.mem_range.1 hi
  rw [h, smul_zero]
  cases sc <;> simp [pdim, pidx, hi]

end

/-- coefficients of the operand values are continuous -/
theorem pidx_lt {sc : Bool} {n i : ℕ} (hi : i < n) : pidx sc i < pdim sc n := by cases sc <;> simp [pdim, pidx, hi]

/-- gradient of a sum of element-wise log-densities -/
theorem elementwise {k : Kinds} {sa sb : Bool} {n : ℕ} {Adm valid : Args ℝ → Prop} {f : Args ℝ → ℝ} {l : ℝ → ℝ → ℝ → ℝ} {v : Args ℝ} {seed : ℝ}
    {calls : List (Slot × (ℕ → ℝ))} {dx da db : ℕ → ℝ} (hv : valid v)
    (hopen : ∀ (E : Type) [NormedAddCommGroup E] [NormedSpace ℝ E] (V : E → Args ℝ) (t0 : E), valid (V t0) →
      (∀ s, ∀ i < sdim sa sb n s, ContinuousAt (fun t => (V t).get s i) t0) → ∀ᶠ t in 𝓝 t0, valid (V t))
    (hf : ∀ w, valid w → f w = ∑ i ∈ Finset.range n, l (w.x i) (w.a (pidx sa i)) (w.b (pidx sb i)))
    (hl : ∀ i < n, ∀ (E : Type) [NormedAddCommGroup E] [NormedSpace ℝ E] (X A B : E → ℝ) (X' A' B' : E →L[ℝ] ℝ) (t : E), X t = v.x i → A t = v.a (pidx sa i) →
      B t = v.b (pidx sb i) → HasFDerivAt X X' t → HasFDerivAt A A' t → HasFDerivAt B B' t →
      HasFDerivAt (fun t => l (X t) (A t) (B t)) (dx i • X' + da i • A' + db i • B') t)
    (hx : k.x ≠ .const → ∀ i < n, seedOf calls .x i = seed * dx i)
    (ha0 : k.a ≠ .const → sa = true → seedOf calls .a 0 = seed * ∑ i ∈ Finset.range n, da i)
    (ha1 : k.a ≠ .const → sa = false → ∀ i < n, seedOf calls .a i = seed * da i)
    (hb0 : k.b ≠ .const → sb = true → seedOf calls .b 0 = seed * ∑ i ∈ Finset.range n, db i)
    (hb1 : k.b ≠ .const → sb = false → ∀ i < n, seedOf calls .b i = seed * db i) :
    SeedGradient k (sdim sa sb n) Adm f v seed calls := by
  intro E _ _ V D t0 h0 hA hD hc
  subst h0
  have h1 : HasFDerivAt (fun t => ∑ i ∈ Finset.range n, l ((V t).x i) ((V t).a (pidx sa i)) ((V t).b (pidx sb i)))
      (∑ i ∈ Finset.range n, (dx i • D .x i + da i • D .a (pidx sa i) + db i • D .b (pidx sb i))) t0 := by
    refine HasFDerivAt.fun_sum fun i hi => ?_
    have hi := Finset.mem_range.1 hi
    exact hl i hi E _ _ _ _ _ _ t0 rfl rfl rfl (hD .x i hi) (hD .a _ (pidx_lt hi)) (hD .b _ (pidx_lt hi))
  have h2 := h1.const_mul seed
  refine (h2.congr_fderiv ?_).congr_of_eventuallyEq ?_
  · rw [Finset.sum_add_distrib, Finset.sum_add_distrib, smul_add, smul_add, chain]
    refine congrArg₂ (· + ·) (congrArg₂ (· + ·) ?_ ?_) ?_
    · by_cases h : k.x = .const
      · exact (chain_const seed false n _ dx (D .x) fun i hi => (hc .x h i hi).1).symm
      · exact (chain_param seed false n _ dx (D .x) (fun h => by cases h) fun _ => hx h).symm
    · by_cases h : k.a = .const
      · exact (chain_const seed sa n _ da (D .a) fun i hi => (hc .a h i hi).1).symm
      · exact (chain_param seed sa n _ da (D .a) (ha0 h) (ha1 h)).symm
    · by_cases h : k.b = .const
      · exact (chain_const seed sb n _ db (D .b) fun i hi => (hc .b h i hi).1).symm
      · exact (chain_param seed sb n _ db (D .b) (hb0 h) (hb1 h)).symm
  · filter_upwards [hopen E V t0 hv fun s i hi => (hD s i hi).continuousAt] with t ht
    rw [hf _ ht]

theorem scaleOk_open (sa sb : Bool) (n : ℕ) (E : Type) [NormedAddCommGroup E] [NormedSpace ℝ E] (V : E → Args ℝ) (t0 : E) (h : ScaleOk sb n (V t0))
    (hc : ∀ s, ∀ i < sdim sa sb n s, ContinuousAt (fun t => (V t).get s i) t0) : ∀ᶠ t in 𝓝 t0, ScaleOk sb n (V t) := by
  have : ∀ᶠ t in 𝓝 t0, ∀ i ∈ Finset.range (pdim sb n), 0 < (V t).b i := by
    rw [Filter.eventually_all_finset]
    intro i hi
    exact (hc .b i (Finset.mem_range.1 hi)).eventually_const_lt (h i (Finset.mem_range.1 hi))
  filter_upwards [this] with t ht i hi
  exact ht i (Finset.mem_range.2 hi)

theorem inRange_open (sa sb : Bool) (n : ℕ) (E : Type) [NormedAddCommGroup E] [NormedSpace ℝ E] (V : E → Args ℝ) (t0 : E) (h : InRange sa sb n (V t0))
    (hc : ∀ s, ∀ i < sdim sa sb n s, ContinuousAt (fun t => (V t).get s i) t0) : ∀ᶠ t in 𝓝 t0, InRange sa sb n (V t) := by
  have : ∀ᶠ t in 𝓝 t0, ∀ i ∈ Finset.range n, (V t).a (pidx sa i) < (V t).x i ∧ (V t).x i < (V t).b (pidx sb i) := by
    rw [Filter.eventually_all_finset]
    intro i hi
    have hi := Finset.mem_range.1 hi
    exact ((hc .a _ (pidx_lt hi)).eventually_lt (hc .x i hi) (h i hi).1).and ((hc .x i hi).eventually_lt (hc .b _ (pidx_lt hi)) (h i hi).2)
  filter_upwards [this] with t ht i hi
  exact ht i (Finset.mem_range.2 hi)

/-- invariant of the data members over the life of a node -/
theorem evaluates_of {N : StatNode ℝ} {k : Kinds} {Adm : Args ℝ → Prop} {Hist : Args ℝ → List (Args ℝ) → Prop} {f : Args ℝ → ℝ} {P : N.Cache → Args ℝ → Prop}
    (Ok : Args ℝ → Args ℝ → Prop) (hH : ∀ v0 h, Hist v0 h → ∀ w ∈ h, Ok v0 w)
    (Inv : Args ℝ → N.Cache → Prop) (hctor : ∀ v0, Adm v0 → ∃ c, N.ctor v0 = some c ∧ Inv v0 c)
    (hstep : ∀ v0 c v, Inv v0 c → Adm v → SameConsts k v0 v → Ok v0 v → ∃ c', N.feval c v = some (c', f v) ∧ Inv v0 c' ∧ P c' v) :
    Evaluates N k Adm Hist f P := by
  intro v0 h v hh hadm h0
  have : ∀ h' : List (Args ℝ), (∀ w ∈ h', Adm w ∧ SameConsts k v0 w ∧ Ok v0 w) → ∃ c, N.run v0 h' = some c ∧ Inv v0 c := by
    intro h'
    induction h' with
    | nil => exact fun _ => hctor v0 h0
    | cons w h' ih =>
      intro hw
      obtain ⟨c, h1, h2⟩ := ih fun w hw' => hw w (List.mem_cons_of_mem _ hw')
      obtain ⟨g1, g2, g3⟩ := hw w (List.mem_cons_self ..)
      obtain ⟨c', h3, h4, -⟩ := hstep v0 c w h2 g1 g2 g3
      exact ⟨c', by simp [StatNode.run, h1, h3], h4⟩
  have hok := hH v0 _ hh
  obtain ⟨c, h1, h2⟩ := this h fun w hw => ⟨(hadm w (List.mem_cons_of_mem _ hw)).1, (hadm w (List.mem_cons_of_mem _ hw)).2, hok w (List.mem_cons_of_mem _ hw)⟩
  obtain ⟨c', h3, -, h5⟩ := hstep v0 c v h2 (hadm v (List.mem_cons_self ..)).1 (hadm v (List.mem_cons_self ..)).2 (hok v (List.mem_cons_self ..))
  exact ⟨c, c', h1, h3, h5⟩

end

end FastAD
