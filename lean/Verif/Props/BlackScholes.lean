import Verif.Proof.BlackScholesRun

/-!
# The Black-Scholes example

Property C41: example/black_scholes.cpp prints the Black-Scholes prices and deltas of both options.
-/

namespace FastAD

variable [HasInf ℝ] [LinAlg ℝ]

/-- **C41.** example/black_scholes.cpp (README "Black-Scholes Put-Call Option Pricing"): for any price of the underlying, strike, volatility, time (all positive) and interest
rate, and in any memory in which `S` and `cache` are allocated with zero adjoints, the program is defined and prints

* the price of the call option (the discounted expectation of its payoff),
* its delta, that is, the derivative of this price with respect to the price of the underlying; it is `Φ(d1)`,
* the price of the put option, and
* its delta `Φ(d1) - 1`, which is not disturbed by the first differentiation. -/
theorem C41_black_scholes [LawfulLinAlg] {K σ τ r : ℝ} {qv qa qv' qa' : ℕ} {jv ja jv' ja' : ℕ → ℝ} {s : St ℝ} (hv : ∀ a < 4, s.vok a = true) (ha : ∀ a < 4, s.aok a = true)
    (h0 : ∀ a < 4, s.adj a = 0) (hf : Fresh s (BlackScholes.callExpr K σ τ r).bindSize qv qa)
    (hf' : Fresh (bindExpr (BlackScholes.callExpr K σ τ r) qv qa jv ja s).2 (BlackScholes.putExpr K σ τ r).bindSize qv' qa')
    (hS : 0 < s.val 0) (hK : 0 < K) (hσ : 0 < σ) (hτ : 0 < τ) :
    ∃ s' callDelta putDelta, BlackScholes.main K σ τ r qv qa qv' qa' jv ja jv' ja' s =
        some (s', BlackScholes.call (s.val 0) K σ τ r, callDelta, BlackScholes.put (s.val 0) K σ τ r, putDelta) ∧
      HasDerivAt (fun S => BlackScholes.call S K σ τ r) callDelta (s.val 0) ∧ callDelta = BlackScholes.Phi (BlackScholes.d1 (s.val 0) K σ τ r) ∧
      HasDerivAt (fun S => BlackScholes.put S K σ τ r) putDelta (s.val 0) ∧ putDelta = BlackScholes.Phi (BlackScholes.d1 (s.val 0) K σ τ r) - 1 ∧
      s'.val 0 = s.val 0 := by
  obtain ⟨s2, x, h1, h2, h3, h4, h5, h6⟩ := BlackScholes.half (c := true) (r := r) jv ja hv ha h0 hf hS hK hσ hτ
  have hvok2 : ∀ a < 4, s2.vok a = true := fun a h => by rw [h5]; simp [bindExpr, St.allocate, hv a h]
  have haok2 : ∀ a < 4, s2.aok a = true := fun a h => by rw [h6]; simp [bindExpr, St.allocate, ha a h]
  have hres := resetAdj_spec (s := s2) [0, 1, 2, 3] fun a h => haok2 a (by simp at h; omega)
  obtain ⟨s3, y, g1, g2, g3, g4, g5, g6⟩ := BlackScholes.half (c := false) (r := r) (s := { s2 with adj := fun a => if a ∈ [0, 1, 2, 3] then 0 else s2.adj a }) (qv := qv') (qa := qa') jv' ja'
    hvok2 haok2 (fun a h => if_pos (by simp; omega)) (by
      refine ⟨fun k hk => ?_, fun k hk => ?_⟩
      · have := hf'.1 k hk
        show s2.vok _ = false
        rw [h5]; exact this
      · have := hf'.2 k hk
        show s2.aok _ = false
        rw [h6]; exact this) (by rw [← h4] at hS; exact hS) hK hσ hτ
  simp only [h4] at g2 g3 g4
  have r2 : s2.readA BlackScholes.price.adj 1 = some (trunc 1 fun _ => s2.adj 0) := by
    rw [St.readA, readCells, if_pos]
    · congr 1; funext k
      simp only [trunc]
      split
      · next hk => obtain rfl : k = 0 := by omega
                   rfl
      · rfl
    · intro k hk
      obtain rfl : k = 0 := by omega
      exact haok2 0 (by omega)
  have r3 : s3.readA BlackScholes.price.adj 1 = some (trunc 1 fun _ => s3.adj 0) := by
    rw [St.readA, readCells, if_pos]
    · congr 1; funext k
      simp only [trunc]
      split
      · next hk => obtain rfl : k = 0 := by omega
                   rfl
      · rfl
    · intro k hk
      obtain rfl : k = 0 := by omega
      show s3.aok 0 = true
      rw [g6]; simp [bindExpr, St.allocate, haok2]
  have hpos : ∀ᶠ S in nhds (s.val 0), 0 < S := lt_mem_nhds hS
  refine ⟨s3, s2.adj 0, s3.adj 0, ?_, ?_, by simpa using h3, ?_, by simpa using g3, g4⟩
  · simp only [BlackScholes.expr, if_true] at h1
    simp only [BlackScholes.expr, Bool.false_eq_true, if_false] at g1
    simp only [BlackScholes.main, h1, h2, r2, hres, g1, g2, r3, Option.bind_eq_bind, Option.bind_some, trunc, Nat.one_pos, if_true]
    simp [BlackScholes.formula, BlackScholes.call_eq hS hK hσ hτ, BlackScholes.put_eq hS hK hσ hτ]
  · rw [h3]
    refine HasDerivAt.congr_of_eventuallyEq ?_ (hpos.mono fun S h => BlackScholes.call_eq h hK hσ hτ)
    simpa using BlackScholes.hasDerivAt_call hS hK hσ hτ
  · rw [g3]
    refine HasDerivAt.congr_of_eventuallyEq ?_ (hpos.mono fun S h => BlackScholes.put_eq h hK hσ hτ)
    simpa using BlackScholes.hasDerivAt_put hS hK hσ hτ

/-- C41 with the numbers of the example: S = 105, K = 100, sigma = 5, tau = 30/365, r = 1.25 % -/
example [LawfulLinAlg] (jv ja jv' ja' : ℕ → ℝ) :
    ∃ s' callDelta putDelta, BlackScholes.main 100 5 (30 / 365) (1.25 / 100) 4 4 100 100 jv ja jv' ja' ⟨fun _ => 105, fun _ => 0, fun a => decide (a < 4), fun a => decide (a < 4)⟩ =
        some (s', BlackScholes.call 105 100 5 (30 / 365) (1.25 / 100), callDelta, BlackScholes.put 105 100 5 (30 / 365) (1.25 / 100), putDelta) ∧
      callDelta - putDelta = 1 := by
  obtain ⟨s', a, b, h1, -, h2, -, h3, -⟩ := C41_black_scholes (K := 100) (σ := 5) (τ := 30 / 365) (r := 1.25 / 100) (qv := 4) (qa := 4) (qv' := 100) (qa' := 100) (jv := jv) (ja := ja)
    (jv' := jv') (ja' := ja') (s := ⟨fun _ => 105, fun _ => 0, fun a => decide (a < 4), fun a => decide (a < 4)⟩) (by simp) (by simp) (by simp)
    (by constructor <;> intro k _ <;> simp)
    (by
      have e : (BlackScholes.callExpr (100 : ℝ) 5 (30 / 365) (1.25 / 100)).bindSize.val < 50 ∧ (BlackScholes.callExpr (100 : ℝ) 5 (30 / 365) (1.25 / 100)).bindSize.adj < 50 :=
        ⟨by decide, by decide⟩
      constructor <;> intro k _ <;> simp [bindExpr, St.allocate] <;> omega)
    (by norm_num) (by norm_num) (by norm_num) (by norm_num)
  exact ⟨s', a, b, h1, by rw [h2, h3]; ring⟩

end FastAD
