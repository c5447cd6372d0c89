import Verif.Spec.ForwardMap
import Verif.Proof.Rate
import Verif.Proof.Forward

/-!
# Rounding errors of forward mode
-/

open Filter Topology Asymptotics

namespace FastAD

set_option linter.unusedSectionVars false

variable {ι : Type} {φ : Filter ι} {F : ι → Type} [∀ i, Zero (F i)] [∀ i, One (F i)] [∀ i, Add (F i)] [∀ i, Sub (F i)] [∀ i, Neg (F i)]
variable [∀ i, Mul (F i)] [∀ i, Div (F i)] [∀ i, NatCast (F i)] [∀ i, IntCast (F i)] [∀ i, Fn (F i)]
variable {R : ℝ → (∀ i, F i) → Prop}

/-- value and tangent are approximated -/
def DualRel (R : ℝ → (∀ i, F i) → Prop) (x : Dual ℝ) (c : ∀ i, Dual (F i)) : Prop := R x.w (fun i => (c i).w) ∧ R x.df fun i => (c i).df

theorem approx_fun (h : Approx φ F R) {op : FUn} {x : Dual ℝ} {c : ∀ i, Dual (F i)} (hd : op.DomAt x.w) (hx : DualRel R x c) : DualRel R (op.map x) fun i => op.map (c i) := by
  obtain ⟨hw, hf⟩ := hx
  have hsq : -1 < x.w → x.w < 1 → 0 < 1 - x.w * x.w := fun h1 h2 => by nlinarith
  cases op with
  | neg => exact ⟨h.neg hw, h.neg hf⟩
  | sin => exact ⟨h.sin hw, h.mul (h.cos hw) hf⟩
  | cos => exact ⟨h.cos hw, h.mul (h.neg (h.sin hw)) hf⟩
  | tan =>
    have ht := h.div hd h.one (h.cos hw)
    exact ⟨h.tan hd hw, h.mul (h.mul ht ht) hf⟩
  | asin => exact ⟨h.asin hd.1 hd.2 hw, h.div (Real.sqrt_pos.2 (hsq hd.1 hd.2)).ne' hf (h.sqrt (hsq hd.1 hd.2) (h.sub h.one (h.mul hw hw)))⟩
  | acos => exact ⟨h.acos hd.1 hd.2 hw, h.div (Real.sqrt_pos.2 (hsq hd.1 hd.2)).ne' (h.neg hf) (h.sqrt (hsq hd.1 hd.2) (h.sub h.one (h.mul hw hw)))⟩
  | atan => exact ⟨h.atan hw, h.div (by nlinarith) hf (h.add h.one (h.mul hw hw))⟩
  | exp => exact ⟨h.exp hw, h.mul (h.exp hw) hf⟩
  | log => exact ⟨h.log hd hw, h.div (ne_of_gt hd) hf hw⟩
  | sqrt => exact ⟨h.sqrt hd hw, h.div (mul_ne_zero (by norm_num) (Real.sqrt_pos.2 hd).ne') hf (h.mul (h.add h.one h.one) (h.sqrt hd hw))⟩
  | erf => exact ⟨h.erf hw, h.mul h.twoOverSqrtPi (h.exp (h.neg (h.mul hw hw)))⟩

theorem approx_fbin (h : Approx φ F R) {op : FBin} {x y : Dual ℝ} {c d : ∀ i, Dual (F i)} (hd : op = .div → y.w ≠ 0) (hx : DualRel R x c) (hy : DualRel R y d) :
    DualRel R (op.map x y) fun i => op.map (c i) (d i) := by
  cases op with
  | add => exact ⟨h.add hx.1 hy.1, h.add hx.2 hy.2⟩
  | sub => exact ⟨h.sub hx.1 hy.1, h.sub hx.2 hy.2⟩
  | mul => exact ⟨h.mul hx.1 hy.1, h.add (h.mul hx.1 hy.2) (h.mul hx.2 hy.1)⟩
  | div => exact ⟨h.div (hd rfl) hx.1 hy.1, h.div (mul_ne_zero (hd rfl) (hd rfl)) (h.sub (h.mul hx.2 hy.1) (h.mul hx.1 hy.2)) (h.mul hy.1 hy.1)⟩

theorem approx_fexpr (h : Approx φ F R) {rd : ∀ i, ℝ → F i} (hrd : ∀ c, R c fun i => rd i c) {d : ℕ → Dual ℝ} {d' : ∀ i, ℕ → Dual (F i)} (hd : ∀ j, DualRel R (d j) fun i => d' i j) (e : FExpr ℝ)
    (he : e.Dom fun j => (d j).w) : DualRel R (e.eval d) fun i => (e.map (rd i)).eval (d' i) := by
  induction e with
  | var j => exact hd j
  | lit c => exact ⟨hrd c, h.zero⟩
  | un op e ih => exact approx_fun h (by rw [FExpr.eval_w]; exact he.2) (ih he.1)
  | bin op l r ihl ihr => exact approx_fbin h (fun ho => by rw [FExpr.eval_w]; exact he.2.2 ho) (ihl he.1) (ihr he.2.1)

theorem approx_forward (h : Approx φ F R) {rd : ∀ i, ℝ → F i} (hrd : ∀ c, R c fun i => rd i c) (p : List (FStmt ℝ)) {d : ℕ → Dual ℝ} {d' : ∀ i, ℕ → Dual (F i)} (hd : ∀ j, DualRel R (d j) fun i => d' i j)
    (hp : ForwardDom p fun j => (d j).w) (j : ℕ) : DualRel R (runForward p d j) fun i => runForward (p.map (FStmt.map (rd i))) (d' i) j := by
  have hset : ∀ {d : ℕ → Dual ℝ} {d' : ∀ i, ℕ → Dual (F i)}, (∀ j, DualRel R (d j) fun i => d' i j) → ∀ {x c}, DualRel R x c → ∀ k j, DualRel R (setReg d k x j) fun i => setReg (d' i) k (c i) j := by
    intro d d' hd x c hx k j
    by_cases hj : j = k
    · subst hj; simpa [setReg] using hx
    · simpa [setReg, hj] using hd j
  induction p generalizing d d' with
  | nil => exact hd j
  | cons st p ih =>
    have hw : (fun j => (st.run d j).w) = st.real fun j => (d j).w := by
      have := runForward_w [st] d
      simpa [runForward, realForward] using this
    have h2 : ForwardDom p fun j => (st.run d j).w := by rw [hw]; exact hp.2
    refine ih (d := st.run d) (d' := fun i => (st.map (rd i)).run (d' i)) (fun k => ?_) h2
    cases st with
    | assign k e => exact hset hd (approx_fexpr h hrd hd e hp.1) _ _
    | addAssign k e => exact hset hd (approx_fbin h (fun h => by cases h) (hd _) (approx_fexpr h hrd hd e hp.1)) _ _

end FastAD
