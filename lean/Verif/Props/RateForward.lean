import Verif.Proof.RateForward
import Verif.Props.Forward

/-!
# Rounding errors of forward mode

Property C57, continued.
-/

open Filter Topology Asymptotics

namespace FastAD

/-- a run of a forward program in rounded arithmetic: the rounding, its unit and its range, and the initial objects -/
private structure FRun where
  ε : ℝ
  M : ℝ
  rnd : ℝ → ℝ
  d : ℕ → Dual (Rounded rnd)

/-- **C57, forward mode.** Let a straight-line program over `ForwardVar` objects apply every function inside its open domain (and `erf` to operands of tangent 1 only).  For every object `j` there are constants `C`, `M` and `δ > 0` such that in every
arithmetic whose operations are exact up to an error of `ε (1 + |x|)`, `ε < δ`, for results in the range `[-M, M]`, with initial values and tangents given up to an error of `B ε`: the computed value differs from that of the composed real function by at most `C ε`, and the computed
tangent differs from its directional derivative by at most `C ε`. -/
theorem C57_forward_error_bound (p : List (FStmt ℝ)) (d : ℕ → Dual ℝ) (hd : ForwardDom p fun i => (d i).w) (he : ForwardErfOk p (fun i => (d i).w) fun i => (d i).df) (B : ℝ) (j : ℕ) :
    ∃ D C δ M : ℝ, 0 < δ ∧ HasDerivAt (fun t => realForward p (fun i => (d i).w + t * (d i).df) j) D 0 ∧
      ∀ (ε : ℝ) (rnd : ℝ → ℝ), 0 < ε → ε < δ → (∀ x, |x| ≤ M → |rnd x - x| ≤ ε * (1 + |x|)) → ∀ d' : ℕ → Dual (Rounded rnd),
        (∀ i, |(d' i).w.v - (d i).w| ≤ B * ε ∧ |(d' i).df.v - (d i).df| ≤ B * ε) →
        |(runForward (p.map (FStmt.map .lit)) d' j).w.v - realForward p (fun i => (d i).w) j| ≤ C * ε ∧ |(runForward (p.map (FStmt.map .lit)) d' j).df.v - D| ≤ C * ε := by
  obtain ⟨hv, hD⟩ := C14_forward_derivative_partial p d hd he j
  let I := { i : FRun // 0 < i.ε ∧ (∀ x, |x| ≤ i.M → |i.rnd x - x| ≤ i.ε * (1 + |x|)) ∧ ∀ k, |(i.d k).w.v - (d k).w| ≤ B * i.ε ∧ |(i.d k).df.v - (d k).df| ≤ B * i.ε }
  let ε : I → ℝ := fun i => i.1.ε
  have hpos : ∀ i, 0 < ε i := fun i => i.2.1
  let M : I → ℝ := fun i => i.1.M
  have hε : Tendsto ε (comap ε (𝓝 0) ⊓ comap M atTop) (𝓝 0) := tendsto_comap.mono_left inf_le_left
  have hB : ∀ {f : I → ℝ}, (∀ i, |f i| ≤ B * ε i) → f =O[comap ε (𝓝 0) ⊓ comap M atTop] ε := fun h => IsBigO.of_bound B (.of_forall fun i => by
    rw [Real.norm_eq_abs, Real.norm_eq_abs, abs_of_pos (hpos i)]; exact h i)
  have hr : ∀ K, ∀ᶠ i : I in comap ε (𝓝 0) ⊓ comap M atTop, ∀ x, |x| ≤ K → |i.1.rnd x - x| ≤ ε i * (1 + |x|) := fun K => by
    have hM : Tendsto M (comap ε (𝓝 0) ⊓ comap M atTop) atTop := tendsto_comap.mono_left inf_le_right
    filter_upwards [hM.eventually_ge_atTop K] with i hi x hx
    exact i.2.2.1 x (hx.trans hi)
  have h := approx_forward (rounded_accurate hr hε) (rd := fun i => Rounded.lit) (fun c => near_op hr hε (f := fun x => x) differentiableAt_id (near_exact c)) p (d' := fun i => i.1.d)
    (fun k => ⟨hB fun i => (i.2.2.2 k).1, hB fun i => (i.2.2.2 k).2⟩) hd j
  obtain ⟨C, δ, K, p1, b1⟩ := near_bound (M := M) hpos (Finset.univ : Finset Bool)
    (f := fun b i => if b then (runForward (p.map (FStmt.map .lit)) i.1.d j).w.v - (runForward p d j).w else (runForward (p.map (FStmt.map .lit)) i.1.d j).df.v - (runForward p d j).df) fun b _ => by
      cases b
      · exact h.2
      · exact h.1
  refine ⟨_, C, δ, K, p1, hD, fun ε0 rnd hε0 hlt hrnd d' hd' => ?_⟩
  rw [← hv]
  exact ⟨b1 ⟨⟨ε0, K, rnd, d'⟩, hε0, hrnd, hd'⟩ hlt le_rfl true (Finset.mem_univ _), b1 ⟨⟨ε0, K, rnd, d'⟩, hε0, hrnd, hd'⟩ hlt le_rfl false (Finset.mem_univ _)⟩

/-- `w3 = w1 * sin(w2)` of the README at `w1 = 2, w2 = 0` in the direction (0, 1): the tangent, computed with `p` binary digits after the point, differs from the derivative 2 by at most `C 2^-p`. -/
example : ∃ C : ℝ, ∃ N : ℕ, ∀ p ≥ N, |(runForward [.assign 3 (.bin .mul (.var 1) (.un .sin (.var 2)))] (fun i => if i = 1 then ⟨⟨2⟩, 0⟩ else if i = 2 then ⟨0, 1⟩ else (⟨0, 0⟩ : Dual (Rounded (grid p)))) 3).df.v - 2| ≤ C * (1 / 2) ^ p := by
  obtain ⟨D, C, δ, M, h0, hD, h⟩ := C57_forward_error_bound [.assign 3 (.bin .mul (.var 1) (.un .sin (.var 2)))] (fun i => if i = 1 then ⟨2, 0⟩ else if i = 2 then ⟨0, 1⟩ else ⟨0, 0⟩)
    (by simp [ForwardDom, FStmt.expr, FExpr.Dom, FUn.DomAt]) (by simp [ForwardErfOk, FStmt.expr, FExpr.ErfOk]) 0 3
  obtain ⟨N, hN⟩ := eventually_atTop.1 (half_pow_tendsto.eventually_lt_const h0)
  refine ⟨C, N, fun p hp => ?_⟩
  have hD2 : D = 2 := by
    have e1 : (fun t : ℝ => realForward [.assign 3 (.bin .mul (.var 1) (.un .sin (.var 2)))] (fun i => (if i = 1 then (⟨2, 0⟩ : Dual ℝ) else if i = 2 then ⟨0, 1⟩ else ⟨0, 0⟩).w +
        t * (if i = 1 then (⟨2, 0⟩ : Dual ℝ) else if i = 2 then ⟨0, 1⟩ else ⟨0, 0⟩).df) 3) = fun t => 2 * Real.sin t := by
      funext t; simp [realForward, FStmt.real, FExpr.real, FBin.real, FUn.real]
    rw [e1] at hD
    have := hD.unique ((Real.hasDerivAt_sin 0).const_mul 2)
    simpa using this
  rw [hD2] at h
  refine (h ((1 / 2) ^ p) (grid p) (by positivity) (hN p hp) (fun x _ => grid_err p x) _ fun i => ?_).2
  by_cases h1 : i = 1
  · subst h1; simp [show (0 : Rounded (grid p)).v = 0 from rfl]
  · by_cases h2 : i = 2
    · subst h2; simp [show (0 : Rounded (grid p)).v = 0 from rfl, show (1 : Rounded (grid p)).v = 1 from rfl]
    · simp only [h1, h2, if_false]
      show |(0 : Rounded (grid p)).v - 0| ≤ _ ∧ |(0 : Rounded (grid p)).v - 0| ≤ _
      simp [show (0 : Rounded (grid p)).v = 0 from rfl]

end FastAD
