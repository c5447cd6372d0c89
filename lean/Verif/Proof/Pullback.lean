import Verif.Proof.ProgApi

/-!
# Differentiation starting from arbitrary adjoints
-/

open scoped Topology

namespace FastAD

variable [HasInf ℝ] [LinAlg ℝ] [LawfulLinAlg]

theorem prog_pullback {p : Expr ℝ} (hp : p.Program) {π : ℕ → ℕ} (hl : ProgLeaves p π) {m : ℕ → ℝ} {a : ℕ} (ha : a ∈ p.adjCells)
    (hc : π a ∉ p.constCells) (hpl : π a ∉ p.placeCells)
    (hreg : RegSeq p.flat (fun t => Function.update m (π a) t) (m (π a))) (seed A : ℕ → ℝ) :
    HasDerivAt (fun t => ∑ b ∈ p.adjCells, A b * p.exec (Function.update m (π a) t) (π b) +
        ∑ k ∈ Finset.range p.size, seed k * p.result (Function.update m (π a) t) k)
      (backL p.flat m seed A a) (m (π a)) := by
  classical
  obtain ⟨f1, -, -⟩ := flat_spec p hp.tree
  have hcell : ∀ x ∈ p.flat, ∀ c ∈ x.constCells, c ∈ p.constCells := by
    intro x hx c hc
    obtain ⟨cv, hcv, h⟩ := mem_constCells.1 hc
    exact mem_constCells.2 ⟨cv, (f1 x hx).2.2 cv hcv, h⟩
  obtain ⟨γ', D, h⟩ := pull_list p.flat (fun x hx => (f1 x hx).1) (hasFDerivAt_update m (π a))
    (fun x hx c hcc => Filter.Eventually.of_forall fun t => by
      have : c ≠ π a := fun h => hc (h ▸ hcell x hx c hcc)
      simp [this])
    (fun x hx c hcc y hy h => hl.const c (hcell x hx c hcc) (mem_targetCells.2 ⟨y, hy, h⟩))
    (fun x hx v hv => hl.paired v ((f1 x hx).2.1 v hv))
    (V := p.adjCells) (fun x hx a ha => by
      obtain ⟨v, hv, h⟩ := mem_adjCells.1 ha
      exact mem_adjCells.2 ⟨v, (f1 x hx).2.1 v hv, h⟩)
    hl.inj hp.order (fun x hx c hcc => by
      have : c ≠ π a := fun h => hpl (h ▸ mem_placeCells.2 ⟨x, hx, hcc⟩)
      simp [this]) hreg
  have hpull := h.pull seed A
  rw [sizeR_flat hp.tree hp.nonempty] at h hpull
  have h1 : HasFDerivAt (fun t => ∑ b ∈ p.adjCells, A b * p.exec (Function.update m (π a) t) (π b) +
      ∑ k ∈ Finset.range p.size, seed k * p.result (Function.update m (π a) t) k)
      (∑ b ∈ p.adjCells, A b • γ' (π b) + ∑ k ∈ Finset.range p.size, seed k • D k) (m (π a)) := by
    refine .add (HasFDerivAt.fun_sum fun b _ => ?_) (HasFDerivAt.fun_sum fun k hk => ?_)
    · simp only [exec_tree p]
      exact (h.store (π b)).const_mul (A b)
    · simp only [result_tree p hp.tree hp.nonempty]
      exact (h.deriv k (Finset.mem_range.1 hk)).const_mul (seed k)
  rw [← hpull] at h1
  have h3 := h1.hasDerivAt
  rw [Function.update_eq_self] at h3
  convert h3 using 1
  rw [_root_.sum_apply, Finset.sum_eq_single a]
  · simp [_root_.smul_apply]
  · intro b hb hne
    have : π b ≠ π a := fun h => hne (hl.inj hb ha h)
    simp [this]
  · intro h; exact absurd ha h

end FastAD
