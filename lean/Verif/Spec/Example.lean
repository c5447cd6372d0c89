import Mathlib.Analysis.SpecialFunctions.Trigonometric.Basic
import Mathlib.Analysis.SpecialFunctions.Exp

/-!
# What example/main.cpp announces

The function in the printed text of main.cpp:19, 48 and 77.
-/

namespace FastAD

namespace Example

/-- `f(x, y) = exp((x * sin(y) + x * y) * x * sin(y))` -/
noncomputable def f (x y : ℝ) : ℝ := Real.exp ((x * Real.sin y + x * y) * x * Real.sin y)

end Example

end FastAD
