import Verif.Spec.Faithful
import Mathlib.Analysis.Asymptotics.Defs

/-!
# Approximations whose error is of a given order
-/

open Filter Asymptotics

namespace FastAD

variable {ι : Type}

/-- the machine numbers `a i` differ from the real number `x` by a multiple of `ε i` at most -/
def Near (φ : Filter ι) {F : ι → Type} (val : ∀ i, F i → ℝ) (ε : ι → ℝ) (x : ℝ) (a : ∀ i, F i) : Prop := (fun i => val i (a i) - x) =O[φ] ε

end FastAD
