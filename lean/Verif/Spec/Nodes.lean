import Verif.Spec.Leaves
import Verif.Model.Api
import Verif.Spec.Denote

/-!
# Observable behaviour of a bound expression

Used to state what one node does in terms of what its operands do.
-/

namespace FastAD

variable [HasInf ℝ] [LinAlg ℝ]

/-- Bound anywhere in fresh memory, the expression evaluates to `f`; its backward pass with `seed` then changes no value and adds `d a` to every
adjoint cell `a` of the user's. -/
def Behaves (e : Expr ℝ) (s : St ℝ) (f seed d : ℕ → ℝ) : Prop :=
  ∀ qv qa jv ja, Fresh s e.bindSize qv qa → ∃ s1 r g s2,
    evaluate (bindExpr e qv qa jv ja s).1 (bindExpr e qv qa jv ja s).2 = some (s1, r) ∧
    r.read s1 e.size = some g ∧ (∀ k < e.size, g k = f k) ∧
    evaluateAdj (bindExpr e qv qa jv ja s).1 seed s1 = some s2 ∧ s2.val = s1.val ∧
    ∀ a, s.aok a = true → s2.adj a = s.adj a + d a

/-- The `r`×`c` matrix stored column-major in `f`. -/
def matOf (r c : ℕ) (f : ℕ → ℝ) : Matrix (Fin r) (Fin c) ℝ := Matrix.of fun i j => f (i.1 + j.1 * r)

/-- column-major storage of a matrix -/
def colMajor {r c : ℕ} (M : Matrix (Fin r) (Fin c) ℝ) : ℕ → ℝ := fun k =>
  if h : k < r * c then
    M ⟨k % r, Nat.mod_lt _ (Nat.pos_of_ne_zero (by rintro rfl; simp at h))⟩ ⟨k / r, Nat.div_lt_of_lt_mul h⟩
  else 0

/-- The operand of `det`/`log_det` satisfies the precondition of the decomposition policy: none for the LU policy; symmetric and accepted by the
decomposition for LDLT and LLT (README: positive/negative semidefinite for LDLT, positive definite for LLT). -/
def Decomp.Pre (p : Decomp) (d : ℕ) (f : ℕ → ℝ) : Prop :=
  match p with
  | .lu => True
  | .ldlt => LinAlg.ldltOk d (trunc (d * d) f) = true ∧ (toMat d f).IsSymm
  | .llt => (toMat d f).PosDef

end FastAD
