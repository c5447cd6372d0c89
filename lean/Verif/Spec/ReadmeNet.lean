import Mathlib.Analysis.SpecialFunctions.Exp
import Mathlib.Analysis.Calculus.FDeriv.Basic
import Mathlib.LinearAlgebra.Matrix.Notation
import Verif.Model.ReadmeNet

/-!
# The network of the README

In terms of matrices and vectors of Mathlib.
-/

namespace FastAD

namespace ReadmeNet

open Matrix

/-- the logistic function, for every coefficient -/
noncomputable def sigma {n : ℕ} (x : Fin n → ℝ) : Fin n → ℝ := fun i => (1 + Real.exp (-x i))⁻¹

variable (θ : Fin 25 → ℝ)

/-- the weights, taken from the vector of parameters column by column -/
def W1 : Matrix (Fin 3) (Fin 2) ℝ := !![θ 0, θ 3; θ 1, θ 4; θ 2, θ 5]
@[inherit_doc W1] def c1 : Fin 3 → ℝ := ![θ 6, θ 7, θ 8]
@[inherit_doc W1] def W2 : Matrix (Fin 3) (Fin 3) ℝ := !![θ 9, θ 12, θ 15; θ 10, θ 13, θ 16; θ 11, θ 14, θ 17]
@[inherit_doc W1] def c2 : Fin 3 → ℝ := ![θ 18, θ 19, θ 20]
@[inherit_doc W1] def W3 : Fin 3 → ℝ := ![θ 21, θ 22, θ 23]
@[inherit_doc W1] def c3 : ℝ := θ 24

/-- the prediction for the input `x`: three layers with a jump connection from the first to the third -/
noncomputable def predict (x : Fin 2 → ℝ) : ℝ :=
  let h := W1 θ *ᵥ x + c1 θ
  W3 θ ⬝ᵥ (sigma (W2 θ *ᵥ sigma h + c2 θ) + h) + c3 θ

/-- sum of the squared residuals -/
noncomputable def squares (data : List (ℝ × ℝ × ℝ)) : ℝ := (data.map fun d => (d.2.2 - predict θ ![d.1, d.2.1]) ^ 2).sum

/-- the vector stored in 25 cells -/
def vec25 (f : ℕ → ℝ) : Fin 25 → ℝ := fun i => f i

/-- the gradient of the sum of squares -/
noncomputable def gradient (data : List (ℝ × ℝ × ℝ)) : ℕ → ℝ :=
  fun i => if h : i < 25 then fderiv ℝ (fun θ => squares θ data) θ (Pi.single ⟨i, h⟩ 1) else 0

variable {α : Type}

/-- Contract of the allocator: the blocks returned (two cells, one cell, and 31 cells each for the values and the adjoints of the inner nodes) are disjoint and were not allocated
before. -/
structure Alloc.Fresh (L : Alloc α) (s : St α) : Prop where
  xb : ∀ k < 2, s.vok (L.xb + k) = false
  yb : s.vok L.yb = false
  xy : ∀ k < 2, L.xb + k ≠ L.yb
  qv : ∀ k < 31, s.vok (L.qv + k) = false ∧ L.qv + k ≠ L.yb ∧ L.qv + k ≠ L.xb ∧ L.qv + k ≠ L.xb + 1
  qa : ∀ k < 31, s.aok (L.qa + k) = false

/-- the rounds of the optimiser, computed with exact losses and gradients; the most recent round comes first -/
noncomputable def history (data : List (ℝ × ℝ × ℝ)) (next : List ((ℕ → ℝ) × ℝ × (ℕ → ℝ)) → ℕ → ℝ) :
    ℕ → List ((ℕ → ℝ) × ℝ × (ℕ → ℝ)) → List ((ℕ → ℝ) × ℝ × (ℕ → ℝ))
  | 0, h => h
  | n + 1, h =>
      let θ := vec25 (next h)
      history data next n ((trunc 25 (next h), squares θ data, gradient θ data) :: h)

end ReadmeNet

end FastAD
