import Verif.Proof.Forward
import Mathlib.Tactic.NormNum

/-!
# Properties of forward mode

C14 and C15.
-/

open scoped Real

namespace FastAD

/-- **C14 (partial).** After any straight-line program over `ForwardVar` objects, object `j` holds in its value the value of the composed real function of the
initial values, and in its adjoint the derivative of this function in the direction of the initial adjoints, provided every function is applied inside its open
domain and every `erf` to an operand of tangent 1 (or there is no `erf`).  Missing: `erf` of other tangents, where it is false (`C14_false_for_erf`). -/
theorem C14_forward_derivative_partial (p : List (FStmt ℝ)) (d : ℕ → Dual ℝ) (hd : ForwardDom p fun i => (d i).w)
    (he : ForwardErfOk p (fun i => (d i).w) fun i => (d i).df) (j : ℕ) :
    (runForward p d j).w = realForward p (fun i => (d i).w) j ∧
    HasDerivAt (fun t => realForward p (fun i => (d i).w + t * (d i).df) j) (runForward p d j).df 0 := by
  refine ⟨congrFun (runForward_w p d) j, runForward_hasDerivAt p d hd he _ (fun i => by simp) (fun i => ?_) j⟩
  simpa using ((hasDerivAt_id' (0 : ℝ)).mul_const (d i).df).const_add (d i).w

/-- C14 applies to the example of the README (233-237): `w3 = w1 * sin(w2); w4 = w3 + w1 * w2; w5 = exp(w4 * w3)`, here followed by `w5 += log(w2)`, at
`w1 = 0, w2 = 1` in the direction `(1, 0)`. -/
example : ∃ p : List (FStmt ℝ), p.length = 4 ∧
    HasDerivAt (fun t : ℝ => Real.exp (((0 + t * 1) * Real.sin (1 + t * 0) + (0 + t * 1) * (1 + t * 0)) * ((0 + t * 1) * Real.sin (1 + t * 0))) + Real.log (1 + t * 0))
      (runForward p (fun i => if i = 1 then ⟨0, 1⟩ else if i = 2 then ⟨1, 0⟩ else .zero) 5).df 0 := by
  refine ⟨[.assign 3 (.bin .mul (.var 1) (.un .sin (.var 2))), .assign 4 (.bin .add (.var 3) (.bin .mul (.var 1) (.var 2))),
    .assign 5 (.un .exp (.bin .mul (.var 4) (.var 3))), .addAssign 5 (.un .log (.var 2))], rfl, ?_⟩
  have h := (C14_forward_derivative_partial [.assign 3 (.bin .mul (.var 1) (.un .sin (.var 2))), .assign 4 (.bin .add (.var 3) (.bin .mul (.var 1) (.var 2))),
    .assign 5 (.un .exp (.bin .mul (.var 4) (.var 3))), .addAssign 5 (.un .log (.var 2))] (fun i => if i = 1 then ⟨0, 1⟩ else if i = 2 then ⟨1, 0⟩ else .zero)
    (by simp [ForwardDom, FStmt.expr, FExpr.Dom, FUn.DomAt, FStmt.real, FExpr.real])
    (by simp [ForwardErfOk, FStmt.expr, FExpr.ErfOk]) 5).2
  simpa [realForward, FStmt.real, FExpr.real, FBin.real, FUn.real] using h

/-- C14 applies to `erf(x)` with tangent 1 -/
example : HasDerivAt (fun t => realErf (2 + t * 1)) (runForward [.assign 1 (.un .erf (.var 0))] (fun _ => ⟨2, 1⟩) 1).df 0 := by
  have h := (C14_forward_derivative_partial [.assign 1 (.un .erf (.var 0))] (fun _ => ⟨2, 1⟩) (by simp [ForwardDom, FStmt.expr, FExpr.Dom, FUn.DomAt])
    ⟨⟨trivial, fun _ => ?_⟩, trivial⟩ 1).2
  · simpa [realForward, FStmt.real, FExpr.real, FUn.real] using h
  · have : HasDerivAt (fun t : ℝ => (2 : ℝ) + t * 1) 1 0 := by simpa using ((hasDerivAt_id' (0 : ℝ)).mul_const 1).const_add 2
    exact this.deriv

/-- **C14 is false for `erf`**: `erf(x)` at `x = 0` with tangent 0 (a constant) gets the adjoint `2/√π` instead of 0: the tangent of the operand is dropped
(forward.hpp:136-140). -/
theorem C14_false_for_erf : ∃ (p : List (FStmt ℝ)) (d : ℕ → Dual ℝ) (j : ℕ), ForwardDom p (fun i => (d i).w) ∧
    (runForward p d j).df = 2 / √π ∧ HasDerivAt (fun t => realForward p (fun i => (d i).w + t * (d i).df) j) 0 0 := by
  refine ⟨[.assign 1 (.un .erf (.var 0))], fun _ => ⟨0, 0⟩, 1, by simp [ForwardDom, FStmt.expr, FExpr.Dom, FUn.DomAt], ?_, ?_⟩
  · simp [runForward, FStmt.run, setReg, FExpr.eval, FUn.map, Fn.twoOverSqrtPi, Fn.exp]
  · simpa [realForward, FStmt.real, FExpr.real, FUn.real] using hasDerivAt_const (0 : ℝ) (realErf 0)

variable [HasInf ℝ] [LinAlg ℝ]

/-- **C15 (partial).** For every scalar expression `e` of the functions and operators common to both modes, and every direction (the adjoints of `d`): the adjoint
computed in forward mode equals the sum, over the variables, of direction component times the increment of the adjoint that `autodiff` with seed 1 adds in reverse mode.
Missing: `erf` of an operand whose tangent is not 1, where it is false (`C15_false_for_erf`). -/
theorem C15_forward_eq_reverse_partial (e : FExpr ℝ) (d : ℕ → Dual ℝ) (he : e.ErfOk' d) {s : St ℝ} (hs : s.val = fun i => (d i).w)
    (hal : ∀ i ∈ e.vars, s.vok i = true ∧ s.aok i = true) {qv qa : ℕ} {jv ja : ℕ → ℝ} (hf : Fresh s e.rev.bindSize qv qa) :
    ∃ s1 r, autodiff (bindExpr e.rev qv qa jv ja s).1 (fun _ => 1) (bindExpr e.rev qv qa jv ja s).2 = some (s1, r) ∧
      (e.eval d).df = ∑ i ∈ e.vars, (s1.adj i - s.adj i) * (d i).df ∧
      ∃ g, r.read s1 1 = some g ∧ (e.eval d).w = g 0 := by
  have hal' : e.rev.Alive s.vok s.aok := by
    constructor
    · intro w hw
      obtain ⟨i, hi, rfl⟩ := e.rev_vars w hw
      constructor <;> intro k hk <;> simp [View.size, Shape.size, Shape.scl] at hk <;> subst hk
      · exact (hal i hi).1
      · exact (hal i hi).2
    · rw [e.rev_cviews]; intro c hc; cases hc
  obtain ⟨s1, r, h⟩ := bindExpr_autodiff (jv := jv) (ja := ja) e.rev_wf hal' hf fun _ => 1
  refine ⟨s1, r, h.run, ?_, ?_⟩
  · have := e.rev_grad d he e.vars (Finset.Subset.refl _) fun _ => 1
    rw [one_mul] at this
    rw [← this]
    refine Finset.sum_congr rfl fun i hi => ?_
    rw [h.adj i (hal i hi).2, hs]
    ring
  · have hsz : e.rev.size = 1 := by rw [Expr.size, e.rev_shape]; rfl
    refine ⟨_, hsz ▸ h.value, ?_⟩
    rw [trunc_of_lt Nat.one_pos, FExpr.rev_denote, hs, FExpr.eval_w]

/-- C15 applies to `x0 * sin(x0) / x1` -/
example : ∃ s1 r, autodiff (bindExpr (FExpr.rev (.bin .div (.bin .mul (.var 0) (.un .sin (.var 0))) (.var 1))) 10 10 0 0
      ⟨fun a => (a : ℝ) + 1, 0, fun a => decide (a < 3), fun a => decide (a < 3)⟩).1 (fun _ => 1)
      (bindExpr (FExpr.rev (.bin .div (.bin .mul (.var 0) (.un .sin (.var 0))) (.var 1))) 10 10 0 0
      ⟨fun a => (a : ℝ) + 1, 0, fun a => decide (a < 3), fun a => decide (a < 3)⟩).2 = some (s1, r) ∧
    ((FExpr.bin .div (.bin .mul (.var 0) (.un .sin (.var 0))) (.var 1)).eval fun i => (⟨(i : ℝ) + 1, (i : ℝ) - 3⟩ : Dual ℝ)).df =
      ∑ i ∈ {0, 1}, (s1.adj i - 0) * ((i : ℝ) - 3) := by
  obtain ⟨s1, r, h1, h2, -⟩ := C15_forward_eq_reverse_partial (.bin .div (.bin .mul (.var 0) (.un .sin (.var 0))) (.var 1)) (fun i => (⟨(i : ℝ) + 1, (i : ℝ) - 3⟩ : Dual ℝ))
    (by simp [FExpr.ErfOk']) (s := ⟨fun a => (a : ℝ) + 1, 0, fun a => decide (a < 3), fun a => decide (a < 3)⟩) rfl
    (by intro i hi; simp [FExpr.vars] at hi; rcases hi with rfl | rfl <;> simp) (qv := 10) (qa := 10) (jv := 0) (ja := 0)
    (by constructor <;> intro k _ <;> simp <;> omega)
  exact ⟨s1, r, h1, h2⟩

/-- **C15 is false for `erf`**: for `erf(x)` at `x = 0` in the direction 0, forward mode delivers `2/√π`, reverse mode 0. -/
theorem C15_false_for_erf : ∃ (e : FExpr ℝ) (d : ℕ → Dual ℝ) (s s1 : St ℝ) (r : Ref ℝ), s.val = (fun i => (d i).w) ∧ Fresh s e.rev.bindSize 10 10 ∧
    (∀ i ∈ e.vars, s.vok i = true ∧ s.aok i = true) ∧
    autodiff (bindExpr e.rev 10 10 0 0 s).1 (fun _ => 1) (bindExpr e.rev 10 10 0 0 s).2 = some (s1, r) ∧
    (e.eval d).df = 2 / √π ∧ ∑ i ∈ e.vars, (s1.adj i - s.adj i) * (d i).df = 0 := by
  refine ⟨.un .erf (.var 0), fun _ => ⟨0, 0⟩, ⟨0, 0, fun a => decide (a < 1), fun a => decide (a < 1)⟩, _, _, rfl, ?_, ?_, rfl, ?_, ?_⟩
  · constructor <;> intro k _ <;> simp
  · intro i hi; simp [FExpr.vars] at hi; subst hi; simp
  · simp [FExpr.eval, FUn.map, Fn.twoOverSqrtPi, Fn.exp]
  · simp

end FastAD
