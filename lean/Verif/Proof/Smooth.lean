import Verif.Proof.Hessian
import Mathlib.Analysis.Calculus.FDeriv.Symmetric
import Mathlib.Analysis.SpecialFunctions.Trigonometric.InverseDeriv
import Mathlib.Analysis.SpecialFunctions.Trigonometric.ArctanDeriv
import Mathlib.Analysis.SpecialFunctions.Sqrt

/-!
# Inside the domains expressions are smooth
-/

open Filter Topology
open scoped ContDiff

namespace FastAD

set_option linter.unusedSectionVars false

variable {E : Type} [NormedAddCommGroup E] [NormedSpace ℝ E]

/-- a smooth function and its value at 0 -/
def Smooth (x : ℝ) (c : E → ℝ) : Prop := c 0 = x ∧ ContDiffAt ℝ ∞ c 0

theorem contDiff_realErf : ContDiff ℝ ∞ realErf := by
  rw [contDiff_infty_iff_deriv]
  refine ⟨fun x => (hasDerivAt_realErf x).differentiableAt, ?_⟩
  rw [show deriv realErf = _ from funext fun x => (hasDerivAt_realErf x).deriv]
  fun_prop

theorem Smooth.comp {x : ℝ} {c : E → ℝ} {f : ℝ → ℝ} (hc : Smooth x c) (hf : ContDiffAt ℝ ∞ f x) : Smooth (f x) fun z => f (c z) := by
  refine ⟨by simp only [hc.1], ?_⟩
  have h := hc.1
  subst h
  exact ContDiffAt.comp (0 : E) hf hc.2

theorem Smooth.tendsto {x : ℝ} {c : E → ℝ} (hc : Smooth x c) : Tendsto c (𝓝 0) (𝓝 x) := by
  have := hc.2.continuousAt.tendsto
  rwa [hc.1] at this

theorem smooth_const (x : ℝ) : Smooth x fun _ : E => x := ⟨rfl, contDiffAt_const⟩

theorem smooth_approx : Approx (𝓝 (0 : E)) (fun _ => ℝ) (Smooth (E := E)) where
  zero := smooth_const _
  one := smooth_const _
  nat n := smooth_const _
  int n := smooth_const _
  add ha hb := ⟨by simp only [ha.1, hb.1], ha.2.add hb.2⟩
  sub ha hb := ⟨by simp only [ha.1, hb.1], ha.2.sub hb.2⟩
  mul ha hb := ⟨by simp only [ha.1, hb.1], ha.2.mul hb.2⟩
  neg ha := ⟨by simp only [ha.1], ha.2.neg⟩
  div hy ha hb := ⟨by simp only [ha.1, hb.1], ha.2.div hb.2 (by rw [hb.1]; exact hy)⟩
  sin ha := ha.comp Real.contDiff_sin.contDiffAt
  cos ha := ha.comp Real.contDiff_cos.contDiffAt
  tan h0 ha := ha.comp (Real.contDiffAt_tan.2 h0)
  asin h0 h1 ha := ha.comp (Real.contDiffAt_arcsin h0.ne' h1.ne)
  acos h0 h1 ha := ha.comp (Real.contDiffAt_arccos h0.ne' h1.ne)
  atan ha := ha.comp Real.contDiff_arctan.contDiffAt
  exp ha := ha.comp Real.contDiff_exp.contDiffAt
  log h0 ha := ha.comp (Real.contDiffAt_log.2 h0.ne')
  sqrt h0 ha := ha.comp (Real.contDiffAt_sqrt h0.ne')
  erf ha := ha.comp contDiff_realErf.contDiffAt
  sinh ha := ha.comp Real.contDiff_sinh.contDiffAt
  cosh ha := ha.comp Real.contDiff_cosh.contDiffAt
  tanh {x a} ha := by
    refine ha.comp ?_
    rw [show Real.tanh = fun x => Real.sinh x / Real.cosh x from funext Real.tanh_eq_sinh_div_cosh]
    exact Real.contDiff_sinh.contDiffAt.div Real.contDiff_cosh.contDiffAt (Real.cosh_pos x).ne'
  ipow {n x a} hn ha := by
    refine ha.comp (f := fun x => x ^ n) ?_
    by_cases h0 : 0 ≤ n
    · obtain ⟨k, rfl⟩ := Int.eq_ofNat_of_zero_le h0
      simp only [zpow_natCast]
      exact contDiffAt_id.pow k
    · have hx : x ≠ 0 := by rcases hn with rfl | rfl | hn <;> [omega; omega; exact hn]
      obtain ⟨k, rfl⟩ := Int.exists_eq_neg_ofNat (by omega : n ≤ 0)
      simp only [zpow_neg, zpow_natCast]
      exact (contDiffAt_id.pow k).inv (pow_ne_zero k hx)
  twoOverSqrtPi := smooth_const _
  cmp hxy ha hb := (faithful_real (𝓝 (0 : E))).cmp hxy ha.tendsto hb.tendsto
  bools _ := bools_real

variable [HasInf ℝ] [LinAlg ℝ]

/-- inside the domains the value of an expression is a smooth function of the values of its variables -/
theorem denote_smooth {e : Expr ℝ} {m : ℕ → ℝ} {ρ : E → ℕ → ℝ} (hwf : e.WF) (hip : e.Inside plainDoms m) (hi : e.Inside realDoms m) (h0 : ρ 0 = m) (hρ : ∀ a, ContDiff ℝ ∞ fun z => ρ z a) {k : ℕ} (hk : k < e.size) :
    ContDiffAt ℝ ∞ (fun z => e.denote (ρ z) k) 0 := by
  have hR : Related (𝓝 (0 : E)) plainDoms (Smooth (E := E)) := smooth_approx.related_plain fun hc he => ⟨by rw [← hc.1]; exact he.self_of_nhds.symm, hc.2.congr_of_eventuallyEq (he.mono fun _ h => h.symm)⟩
  have h := (related_exact (fun x => x) (fun (_ : E) x => x) hR smooth_const (m := m) (m' := ρ) e hwf (by rwa [map_id]) (fun a _ => ⟨by simp only [h0], (hρ a).contDiffAt⟩) k hk).1
  simp only [map_id] at h
  refine h.2.congr_of_eventuallyEq ?_
  filter_upwards [inside_near hwf hi (ρ := ρ) (φ := 𝓝 0) fun a => by have := (hρ a).continuous.tendsto 0; rwa [h0] at this] with z hz
  rw [exact_eq_denote hwf hz]

/-- mixed partial derivatives do not depend on the order -/
theorem mixed_eq {g : ℝ × ℝ → ℝ} (hg : ContDiffAt ℝ ∞ g 0) {D D' : ℝ → ℝ} {d d' : ℝ}
    (h1 : ∀ᶠ x in 𝓝 0, HasDerivAt (fun y => g (x, y)) (D x) 0) (h2 : ∀ᶠ y in 𝓝 0, HasDerivAt (fun x => g (x, y)) (D' y) 0)
    (hd : HasDerivAt D d 0) (hd' : HasDerivAt D' d' 0) : d = d' := by
  have h2le : (2 : ℕ∞ω) ≤ ∞ := WithTop.coe_le_coe.2 (le_top : (2 : ℕ∞) ≤ ⊤)
  have hsym := hg.isSymmSndFDerivAt (𝕜 := ℝ) (by simpa using h2le)
  have hf2 : HasFDerivAt (fderiv ℝ g) (fderiv ℝ (fderiv ℝ g) 0) 0 :=
    ((hg.fderiv_right (m := 1) (by rw [one_add_one_eq_two]; exact h2le)).differentiableAt (by simp)).hasFDerivAt
  have hdiff : ∀ᶠ z in 𝓝 (0 : ℝ × ℝ), HasFDerivAt g (fderiv ℝ g z) z := by
    have := (hg.of_le (m := 1) (by simp)).eventually (by simp)
    exact this.mono fun z hz => (hz.differentiableAt (by simp)).hasFDerivAt
  have k1 : Tendsto (fun x : ℝ => (x, (0 : ℝ))) (𝓝 0) (𝓝 0) := by
    have : Continuous fun x : ℝ => (x, (0 : ℝ)) := by fun_prop
    exact this.tendsto 0
  have k2 : Tendsto (fun y : ℝ => ((0 : ℝ), y)) (𝓝 0) (𝓝 0) := by
    have : Continuous fun y : ℝ => ((0 : ℝ), y) := by fun_prop
    exact this.tendsto 0
  have l1 : ∀ x : ℝ, HasDerivAt (fun x : ℝ => (x, (0 : ℝ))) (1, 0) x := fun x => (hasDerivAt_id x).prodMk (hasDerivAt_const x 0)
  have l2 : ∀ x y : ℝ, HasDerivAt (fun y : ℝ => (x, y)) (0, 1) y := fun x y => (hasDerivAt_const y x).prodMk (hasDerivAt_id y)
  have l3 : ∀ x y : ℝ, HasDerivAt (fun x : ℝ => (x, y)) (1, 0) x := fun x y => (hasDerivAt_id x).prodMk (hasDerivAt_const x y)
  have e1 : D =ᶠ[𝓝 0] fun x => fderiv ℝ g (x, 0) (0, 1) := by
    filter_upwards [h1, k1.eventually hdiff] with x hx hx'
    exact hx.unique (HasFDerivAt.comp_hasDerivAt (0 : ℝ) hx' (l2 x 0))
  have e2 : D' =ᶠ[𝓝 0] fun y => fderiv ℝ g (0, y) (1, 0) := by
    filter_upwards [h2, k2.eventually hdiff] with y hy hy'
    exact hy.unique (HasFDerivAt.comp_hasDerivAt (0 : ℝ) hy' (l3 0 y))
  have f1 : HasDerivAt (fun x => fderiv ℝ g (x, 0) (0, 1)) (fderiv ℝ (fderiv ℝ g) 0 (1, 0) (0, 1)) 0 :=
    ((HasFDerivAt.comp_hasDerivAt (f := fun x : ℝ => (x, (0 : ℝ))) (0 : ℝ) (l := fderiv ℝ g) hf2 (l1 0)).clm_apply (hasDerivAt_const (0 : ℝ) ((0 : ℝ), (1 : ℝ)))).congr_deriv (by simp)
  have f2 : HasDerivAt (fun y => fderiv ℝ g (0, y) (1, 0)) (fderiv ℝ (fderiv ℝ g) 0 (0, 1) (1, 0)) 0 :=
    ((HasFDerivAt.comp_hasDerivAt (f := fun y : ℝ => ((0 : ℝ), y)) (0 : ℝ) (l := fderiv ℝ g) hf2 (l2 0 0)).clm_apply (hasDerivAt_const (0 : ℝ) ((1 : ℝ), (0 : ℝ)))).congr_deriv (by simp)
  rw [hd.unique (f1.congr_of_eventuallyEq e1), hd'.unique (f2.congr_of_eventuallyEq e2)]
  exact hsym _ _

end FastAD
