import Verif.Spec.Loop

/-!
# Rounds of differentiation from arbitrary adjoints
-/

namespace FastAD

variable [HasInf ℝ] [LinAlg ℝ]

/-- What one round makes of the adjoints `A`, when the memory holds `m`: the gradient of `∑ b, A b * (final value of the variable of b) + ∑ k, seed k * (result)ₖ`.  For a variable the derivative is taken with respect to its value before the program;
for a placeholder, with respect to the value assigned to it, the statements `L2` after the assignment being the program.  (`π` leads from the adjoint to the value of a variable.) -/
structure RoundOf (p : Expr ℝ) (π : ℕ → ℕ) (seed m A A' : ℕ → ℝ) : Prop where
  ofVar : ∀ a ∈ p.adjCells, π a ∉ p.constCells → π a ∉ p.placeCells → RegSeq p.flat (fun t => Function.update m (π a) t) (m (π a)) →
    HasDerivAt (fun t => ∑ b ∈ p.adjCells, A b * p.exec (Function.update m (π a) t) (π b) + ∑ k ∈ Finset.range p.size, seed k * p.result (Function.update m (π a) t) k)
      (A' a) (m (π a))
  ofPlaceholder : ∀ L1 v e w L2, p.flat = L1 ++ .eq v e w :: L2 → ∀ k < v.size,
    (L2 = [] → A' (addr v.adj + k) = A (addr v.adj + k) + seed k) ∧
    (L2 ≠ [] → RegSeq L2 (fun t => Function.update (execL (L1 ++ [.eq v e w]) m) (addr v.val + k) t) (e.denote (execL L1 m) k) →
      HasDerivAt (fun t => ∑ b ∈ p.adjCells, A b * execL L2 (Function.update (execL (L1 ++ [.eq v e w]) m) (addr v.val + k) t) (π b) +
          ∑ i ∈ Finset.range p.size, seed i * resultL L2 (Function.update (execL (L1 ++ [.eq v e w]) m) (addr v.val + k) t) i)
        (A' (addr v.adj + k)) (e.denote (execL L1 m) k))

/-- Rounds with the stores `ms`, one after the other: before each, the adjoints `resets` are set to zero and all others are kept.  The memory of a round holds its store, except for what earlier rounds left in the placeholders. -/
inductive RoundsOf (p : Expr ℝ) (π : ℕ → ℕ) (seed : ℕ → ℝ) (ok : ℕ → Bool) (resets : List ℕ) : List (ℕ → ℝ) → (ℕ → ℝ) → (ℕ → ℝ) → Prop
  | done (A) : RoundsOf p π seed ok resets [] A A
  | round {m m' ms A A1 A'} : (∀ c, ok c = true → c ∉ p.placeCells → m' c = m c) → RoundOf p π seed m' (fun a => if a ∈ resets then 0 else A a) A1 →
      RoundsOf p π seed ok resets ms A1 A' → RoundsOf p π seed ok resets (m :: ms) A A'

end FastAD
