import Verif.Spec.Storage
import Verif.Model.Params

/-!
# A contiguous vector of parameters

Optimisers keep all parameters in one vector and want the gradient as one vector.
-/

namespace FastAD

/-- Every coefficient of the view is a coefficient `o` of the block of `N` values at `qv` and adjoints at `qa`. -/
def View.InBlock (v : View) (qv qa N : ℕ) : Prop := ∀ k < v.size, ∃ o < N, addr v.val + k = qv + o ∧ addr v.adj + k = qa + o

/-- the memory in which the block of `N` values at `qv` holds the vector `θ` -/
def withParams (m : ℕ → ℝ) (qv : ℕ) {N : ℕ} (θ : Fin N → ℝ) : ℕ → ℝ :=
  fun c => if h : qv ≤ c ∧ c < qv + N then θ ⟨c - qv, by omega⟩ else m c

/-- The variables of the program are in a block of parameters (values from `qv` on, adjoints from `qa` on) or in a working area (values from `wv` on, adjoints
from `wa` on), which do not overlap.  The placeholders are in the working area.  Constant views do not look at parameters or at variables which the
program assigns. -/
structure Expr.Params {α : Type} (p : Expr α) (qv qa N wv wa M : ℕ) : Prop where
  vars : ∀ v ∈ p.vars, v.InBlock qv qa N ∨ v.InBlock wv wa M
  place : ∀ x ∈ p.flat, ∀ v ∈ x.placeholder, v.InBlock wv wa M
  const : ∀ c ∈ p.constCells, ¬ (qv ≤ c ∧ c < qv + N) ∧ c ∉ p.targetCells
  disjV : ∀ i < N, ∀ j < M, qv + i ≠ wv + j
  disjA : ∀ i < N, ∀ j < M, qa + i ≠ wa + j

end FastAD
