import Mathlib.Analysis.SpecialFunctions.Exp

/-!
# The network of example/ceres_3layer_neural_net/src.cpp

The prediction as a formula in the parameters (cells 0 to 24 of `m`, matrices column by column) and the row of data (cells 36 to 38).
-/

namespace FastAD

namespace Sample.Ceres

/-- the logistic function -/
noncomputable def sigma (x : ℝ) : ℝ := (1 + Real.exp (-x))⁻¹

/-- first layer -/
def lin (m : ℕ → ℝ) (i : ℕ) : ℝ := m i * m 36 + m (i + 3) * m 37 + m (6 + i)

/-- prediction of the network `A3 (s(A2 s(A1 x + b1) + b2) + (A1 x + b1)) + b3` -/
noncomputable def pred (m : ℕ → ℝ) : ℝ :=
  (∑ i ∈ Finset.range 3, m (21 + i) * (sigma ((∑ l ∈ Finset.range 3, m (9 + (i + 3 * l)) * sigma (lin m l)) + m (18 + i)) + lin m i)) + m 24

/-- derivative of the loss of the current row with respect to the prediction -/
noncomputable def slope (m : ℕ → ℝ) : ℝ := -2 * (m 38 - pred m)

end Sample.Ceres

end FastAD
