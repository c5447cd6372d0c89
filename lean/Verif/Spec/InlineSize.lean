import Verif.Spec.Inline

/-!
# Used placeholders
-/

namespace FastAD

variable {α : Type}

/-- Every placeholder of `w₁ = r₁, …, wₙ = rₙ, e` is mentioned by the expression `e` or by the right-hand side of a later assignment. -/
def AllUsed : List (View × Expr α) → Expr α → Prop
  | [], _ => True
  | (w, _) :: ss, e => (w ∈ e.vars ∨ ∃ x ∈ ss, w ∈ x.2.vars) ∧ AllUsed ss e

end FastAD
