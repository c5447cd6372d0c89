import Verif.Proof.Example
import Verif.Props.Forward

/-!
# The example program

Property C58: example/main.cpp prints the partial derivatives it announces.
-/

namespace FastAD

variable [HasInf ℝ] [LinAlg ℝ]

/-- **C58.** example/main.cpp: for any two numbers in place of `x1`, `x2`, in any memory, the program is defined and prints `∂f/∂x` (forward mode), `∂f/∂x` and `∂f/∂y` (reverse mode with three placeholders), and
the same two numbers again (the same with vectors of variables), where `f(x, y) = exp((x * sin(y) + x * y) * x * sin(y))` is the function in the printed text. -/
theorem C58_example_main [LawfulLinAlg] (x y : ℝ) (d : ℕ → Dual ℝ) {c qv qa c' qv' qa' : ℕ} {s : St ℝ} (hf : Fresh (Example.declare c x y s) (Example.expr c : Expr ℝ).bindSize qv qa)
    (hf' : Fresh (Example.declare c' x y (bindExpr (Example.expr c) qv qa (fun _ => 0) (fun _ => 0) (Example.declare c x y s)).2) (Example.expr c' : Expr ℝ).bindSize qv' qa') :
    ∃ dx dy, Example.main x y d c qv qa c' qv' qa' s = some [dx, dx, dy, dx, dy] ∧ HasDerivAt (fun t => Example.f t y) dx x ∧ HasDerivAt (fun t => Example.f x t) dy y := by
  obtain ⟨s1, dx, dy, h1, h2, h3, hv, ha⟩ := Example.reverse_run hf
  obtain ⟨s2, dx', dy', g1, g2, g3, -, -⟩ := Example.reverse_run (c := c') (x := x) (y := y) (s := s1) (qv := qv') (qa := qa')
    (by simpa only [Fresh, Example.declare, hv, ha] using hf')
  obtain rfl := h2.unique g2
  obtain rfl := h3.unique g3
  have hfw : HasDerivAt (fun t => Example.f t y) (Example.forward x y d) x := by
    have h := (C14_forward_derivative_partial Example.forwardProg (setReg (setReg d 1 ⟨x, 1⟩) 2 (.ofVal y)) (by simp [Example.forwardProg, ForwardDom, FStmt.expr, FExpr.Dom, FUn.DomAt])
      (by simp [Example.forwardProg, ForwardErfOk, FStmt.expr, FExpr.ErfOk]) 5).2
    have e : (fun t : ℝ => realForward Example.forwardProg (fun i => (setReg (setReg d 1 ⟨x, 1⟩) 2 (.ofVal y) i).w + t * (setReg (setReg d 1 ⟨x, 1⟩) 2 (.ofVal y) i).df) 5) = fun t => Example.f (x + t) y := by
      funext t
      simp [Example.forwardProg, realForward, FStmt.real, FExpr.real, FBin.real, FUn.real, setReg, Dual.ofVal, Example.f]
      ring_nf
    rw [e] at h
    have h := HasDerivAt.comp_sub_const (x := x) (a := x) (f := fun t => Example.f (x + t) y) (by simpa using h)
    simpa [Example.forward] using h
  obtain rfl := h2.unique hfw
  exact ⟨_, dy, by simp only [Example.main, h1, g1, Option.bind_eq_bind, Option.bind_some], h2, h3⟩

/-- C58 with the numbers of the program, in an empty memory: variables at 0..4 and 40..44, buffers at 10 and 50 -/
example [LawfulLinAlg] : ∃ dx dy, Example.main (-0.201) 1.2241 (fun _ => .zero) 0 10 10 40 50 50 (⟨fun _ => 0, fun _ => 0, fun _ => false, fun _ => false⟩ : St ℝ) = some [dx, dx, dy, dx, dy] ∧
    HasDerivAt (fun t => Example.f t 1.2241) dx (-0.201) ∧ HasDerivAt (fun t => Example.f (-0.201) t) dy 1.2241 := by
  refine C58_example_main _ _ _ ?_ ?_
  · constructor <;> intro k hk <;> simp [Example.declare] <;> omega
  · have e0 : (Example.expr 0 : Expr ℝ).bindSize.val < 10 ∧ (Example.expr 0 : Expr ℝ).bindSize.adj < 10 := ⟨by decide, by decide⟩
    constructor <;> intro k hk <;> simp [Example.declare, bindExpr, St.allocate] <;> omega

end FastAD
