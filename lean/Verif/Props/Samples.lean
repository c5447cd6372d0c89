import Verif.Spec.Session
import Mathlib.Tactic.NormNum

/-!
# A concrete expression used in the examples

`sum(x * sin(v)) + log(x)` with a scalar variable `x` and a vector `v` of two elements.
-/

namespace FastAD.Sample

/-- scalar variable: value cell 0, adjoint cell 0 -/
def x : View := ⟨.scl, some 0, some 0⟩
/-- vector of two elements: value cells 1, 2 and adjoint cells 1, 2 -/
def v : View := ⟨.vec 2, some 1, some 1⟩

/-- `sum(x * sin(v)) + log(x)` -/
def e : Expr ℝ :=
  .mkBinary .add (.mkReduce .sum (.cons (.mkBinary .mul (.var x) (.mkUnary .sin (.var v))) .nil)) (.mkUnary .log (.var x))

/-- memory holding the variables (x = 1, v = (2, 3)); everything from cell 3 on is free -/
noncomputable def s : St ℝ := ⟨fun a => (a : ℝ) + 1, fun _ => 0, fun a => decide (a < 3), fun a => decide (a < 3)⟩

theorem e_wf : e.WF := by
  refine ⟨⟨⟨⟨?_, ⟨?_, ?_, ?_⟩, ?_, ?_, ?_⟩, trivial⟩, ?_, .inl ⟨_, rfl, ?_, ?_⟩⟩, ⟨?_, ?_, ?_⟩, ?_, ?_, ?_⟩ <;>
    simp [Expr.WF, Expr.mkBinary, Expr.mkUnary, Expr.mkReduce, Expr.shape, Expr.view, View.null, Expr.binShape, Shape.ofDims, Shape.maxKind,
      x, v, Shape.scl, Shape.vec, Shape.Ok, binDimsOk, sameDims, Shape.isScl, Expr.isIf, RedOp.ShapeOk, BOp.isComparison]

theorem e_alive : e.Alive s.vok s.aok := by
  constructor
  · intro w hw
    simp only [e, Expr.mkBinary, Expr.mkReduce, Expr.mkUnary, Expr.vars, Exprs.varss, List.append_nil, List.mem_append, List.mem_singleton] at hw
    rcases hw with (rfl | rfl) | rfl <;> constructor <;> intro k hk <;>
      simp [x, v, View.size, Shape.size, Shape.scl, Shape.vec, s] at hk ⊢ <;> omega
  · intro c hc
    simp [e, Expr.mkBinary, Expr.mkReduce, Expr.mkUnary, Expr.cviews, Exprs.cviewss] at hc

theorem e_fresh : Fresh s e.bindSize 10 10 := by
  constructor <;> intro k _ <;> simp [s] <;> omega

theorem e_paired : e.Paired id := by
  intro w hw k hk
  simp only [e, Expr.mkBinary, Expr.mkReduce, Expr.mkUnary, Expr.vars, Exprs.varss, List.append_nil, List.mem_append, List.mem_singleton] at hw
  rcases hw with (rfl | rfl) | rfl <;> rfl

theorem e_constCells : e.constCells = ∅ := rfl

theorem e_adjCells : e.adjCells = {0, 1, 2} := by decide

variable [HasInf ℝ] [LinAlg ℝ]

/-- the expression is regular wherever `x > 0` -/
theorem e_reg {E : Type} [NormedAddCommGroup E] [NormedSpace ℝ E] (ρ : E → ℕ → ℝ) (x0 : E) (h : 0 < ρ x0 0) : e.Reg ρ x0 := by
  simp only [e, Expr.mkBinary, Expr.mkReduce, Expr.mkUnary, Expr.Reg, Exprs.Regs, BOp.isComparison]
  simp [Exprs.toList, RedOp.RegAt, RedOp.RegsAt, UOp.DomAt, Expr.denote, x, addr, Expr.size, Expr.shape, Expr.view, Shape.size, Shape.scl, h]

end FastAD.Sample
