import Verif.Model.Loop
import Verif.Spec.Program
import Mathlib.Analysis.Calculus.Deriv.Basic

/-!
# The loss of a data set and exact training

Nothing here mentions caches, placeholders or adjoints.
-/

namespace FastAD

noncomputable section

/-- the store after the assignments of a row of data -/
def overlay (m : ℕ → ℝ) (row : List (ℕ × ℝ)) : ℕ → ℝ := row.foldl (fun m w => Function.update m w.1 w.2) m

/-- the stores holding the first, second, ... row -/
def rowStores (m : ℕ → ℝ) : List (List (ℕ × ℝ)) → List (ℕ → ℝ)
  | [] => []
  | row :: rows => overlay m row :: rowStores (overlay m row) rows

variable [HasInf ℝ] [LinAlg ℝ]

/-- the loss of a data set: the sum of `f` over its rows -/
def total (f : (ℕ → ℝ) → ℝ) (m : ℕ → ℝ) (rows : List (List (ℕ × ℝ))) : ℝ := ((rowStores m rows).map f).sum

/-- the gradient of the loss with respect to the parameters -/
def Training.gradient (T : Training ℝ) (f : (ℕ → ℝ) → ℝ) (m : ℕ → ℝ) : ℕ → ℝ :=
  trunc T.n fun i => deriv (fun t => total f (Function.update m (T.pv + i) t) T.rows) (m (T.pv + i))

/-- one exact step of the optimiser: the parameters are updated with the exact gradient (the buffers hold the last row afterwards) -/
def Training.exact (T : Training ℝ) (f : (ℕ → ℝ) → ℝ) (m : ℕ → ℝ) : ℕ → ℝ :=
  fillRange (T.rows.foldl overlay m) T.pv T.n (T.update (trunc T.n fun i => m (T.pv + i)) (T.gradient f m))

/-- The parameters are variables of `p` which are not placeholders, not also viewed as constants, not part of the data, and whose adjoints are not reset within the loop over the
data. -/
def Training.Fits (T : Training ℝ) (p : Expr ℝ) (π : ℕ → ℕ) (resets : List ℕ) : Prop :=
  ∀ i < T.n, T.pa + i ∈ p.adjCells ∧ π (T.pa + i) = T.pv + i ∧ T.pv + i ∉ p.constCells ∧ T.pv + i ∉ p.placeCells ∧ T.pa + i ∉ resets ∧
    ∀ row ∈ T.rows, ∀ w ∈ row, w.1 ≠ T.pv + i

/-- For every row of the data, `p` is regular as a function of each parameter. -/
def Training.Regular (T : Training ℝ) (p : Expr ℝ) (m : ℕ → ℝ) : Prop :=
  ∀ i < T.n, ∀ m' ∈ rowStores m T.rows, RegSeq p.flat (fun t => Function.update m' (T.pv + i) t) (m' (T.pv + i))

end

end FastAD
