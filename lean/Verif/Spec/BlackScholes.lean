import Mathlib.Probability.Distributions.Gaussian.Real

/-!
# Black-Scholes option prices

The price of a European option in the Black-Scholes model is the discounted expectation of its payoff, the price of the underlying at maturity being log-normal.  Nothing here
mentions the error function or the closed formulas that example/black_scholes.cpp evaluates.
-/

open ProbabilityTheory

namespace FastAD

namespace BlackScholes

noncomputable section

/-- price at time `τ` of the underlying with price `S` today, volatility `σ`, interest rate `r`, when the driving Brownian motion is at `√τ z` -/
def future (S σ τ r z : ℝ) : ℝ := S * Real.exp ((r - σ ^ 2 / 2) * τ + σ * √τ * z)

/-- price of the call option: discounted expectation of `max(S_τ - K, 0)` -/
def call (S K σ τ r : ℝ) : ℝ := Real.exp (-r * τ) * ∫ z, max (future S σ τ r z - K) 0 ∂gaussianReal 0 1

/-- price of the put option: discounted expectation of `max(K - S_τ, 0)` -/
def put (S K σ τ r : ℝ) : ℝ := Real.exp (-r * τ) * ∫ z, max (K - future S σ τ r z) 0 ∂gaussianReal 0 1

/-- distribution function of the standard normal distribution -/
def Phi (x : ℝ) : ℝ := (gaussianReal 0 1).real (Set.Iic x)

/-- `d1` of the Black-Scholes formula -/
def d1 (S K σ τ r : ℝ) : ℝ := (Real.log (S / K) + (r + σ ^ 2 / 2) * τ) / (σ * √τ)

end

end BlackScholes

end FastAD
