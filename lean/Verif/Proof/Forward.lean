import Verif.Spec.Forward
import Verif.Proof.Deriv
import Verif.Proof.Nodes

/-!
# Forward mode computes directional derivatives
-/

open scoped Real

namespace FastAD

noncomputable section

theorem FUn.map_w (op : FUn) (x : Dual ℝ) : (op.map x).w = op.real x.w := by cases op <;> rfl

theorem FBin.map_w (op : FBin) (x y : Dual ℝ) : (op.map x y).w = op.real x.w y.w := by cases op <;> rfl

theorem FUn.real_rev (op : FUn) : op.rev.real = op.real := by cases op <;> rfl

theorem FUn.domAt_rev (op : FUn) (x : ℝ) (h : op.DomAt x) : op.rev.DomAt x := by cases op <;> exact h

/-- tangent and reverse-mode seed are multiplied by the same derivative -/
theorem FUn.map_df (op : FUn) (x : Dual ℝ) (h : op = .erf → x.df = 1) : (op.map x).df = op.rev.bmap 1 x.w (op.real x.w) * x.df := by
  cases op <;> simp only [FUn.map, FUn.rev, UOp.bmap, FUn.real, Fn.exp, Fn.sqrt, Fn.cos, Fn.sin, Fn.twoOverSqrtPi]
  case tan => field_simp
  case asin => field_simp
  case acos => field_simp
  case atan => field_simp
  case sqrt =>
    rw [show (1 + 1 : ℝ) = 2 by norm_num]
    field_simp
  case erf =>
    rw [h rfl]
    ring_nf
  all_goals ring

theorem FBin.map_df (op : FBin) (x y : Dual ℝ) :
    (op.map x y).df = op.rev.bl 1 x.w y.w (op.real x.w y.w) * x.df + op.rev.br 1 x.w y.w (op.real x.w y.w) * y.df := by
  cases op <;> simp only [FBin.map, FBin.rev, BOp.bl, BOp.br, FBin.real]
  · ring
  · ring
  · ring
  · by_cases hy : y.w = 0
    · simp [hy]
    · field_simp
      ring

theorem FExpr.eval_w (e : FExpr ℝ) (d : ℕ → Dual ℝ) : (e.eval d).w = e.real fun i => (d i).w := by
  induction e with
  | var i => rfl
  | lit c => rfl
  | un op e ih => rw [FExpr.eval, FUn.map_w, ih]; rfl
  | bin op l r ihl ihr => rw [FExpr.eval, FBin.map_w, ihl, ihr]; rfl

/-- along every differentiable curve through the inputs, the tangent computed is the derivative -/
theorem FExpr.hasDerivAt (e : FExpr ℝ) (d : ℕ → Dual ℝ) (hd : e.Dom fun i => (d i).w) (he : e.ErfOk (fun i => (d i).w) fun i => (d i).df) :
    ∀ (c : ℝ → ℕ → ℝ), (∀ i, c 0 i = (d i).w) → (∀ i, HasDerivAt (fun t => c t i) (d i).df 0) → HasDerivAt (fun t => e.real (c t)) (e.eval d).df 0 := by
  induction e with
  | var i => exact fun c _ h => h i
  | lit a => exact fun c _ _ => hasDerivAt_const 0 a
  | un op e ih =>
    intro c h0 h
    have hc : c 0 = fun i => (d i).w := funext h0
    have hi := ih hd.1 he.1
    have herf : op = .erf → (e.eval d).df = 1 := fun ho => by
      rw [← he.2 ho]
      refine (HasDerivAt.deriv (hi (fun t i => (d i).w + t * (d i).df) (fun i => by simp) fun i => ?_)).symm
      simpa using ((hasDerivAt_id' (0 : ℝ)).mul_const (d i).df).const_add (d i).w
    have h1 := UOp.hasDerivAt op.rev (op.domAt_rev _ hd.2)
    rw [FExpr.eval, FUn.map_df op _ herf, FExpr.eval_w]
    rw [FUn.real_rev] at h1
    rw [← hc] at h1 ⊢
    exact HasDerivAt.comp (0 : ℝ) h1 (hi c h0 h)
  | bin op l r ihl ihr =>
    intro c h0 h
    have hc : c 0 = fun i => (d i).w := funext h0
    have hl := ihl hd.1 he.1 c h0 h
    have hr := ihr hd.2.1 he.2 c h0 h
    have hne := hd.2.2
    have hwl := l.eval_w d
    have hwr := r.eval_w d
    rw [← hc] at hne hwl hwr
    cases op
    · exact hl.add hr
    · exact hl.sub hr
    · have := hl.mul hr
      convert! this using 1
      simp only [FExpr.eval, FBin.map, hwl, hwr]
      ring
    · have := hl.div hr (hne rfl)
      convert! this using 1
      simp only [FExpr.eval, FBin.map, hwl, hwr, sq]

theorem setReg_eq {β : Type} (d : ℕ → β) (i : ℕ) (x : β) : setReg d i x = Function.update d i x := by
  funext j
  simp only [setReg, Function.update]
  split <;> simp_all

theorem FStmt.run_w (st : FStmt ℝ) (d : ℕ → Dual ℝ) : (fun i => (st.run d i).w) = st.real fun i => (d i).w := by
  funext j
  cases st with
  | assign i e =>
    simp only [FStmt.run, FStmt.real, setReg, Function.update]
    split <;> simp [FExpr.eval_w, *]
  | addAssign i e =>
    simp only [FStmt.run, FStmt.real, setReg, Function.update]
    split <;> simp [FExpr.eval_w, FBin.map, *]

theorem FStmt.hasDerivAt (st : FStmt ℝ) (d : ℕ → Dual ℝ) (hd : st.expr.Dom fun i => (d i).w) (he : st.expr.ErfOk (fun i => (d i).w) fun i => (d i).df)
    (c : ℝ → ℕ → ℝ) (h0 : ∀ i, c 0 i = (d i).w) (h : ∀ i, HasDerivAt (fun t => c t i) (d i).df 0) (j : ℕ) :
    HasDerivAt (fun t => st.real (c t) j) (st.run d j).df 0 := by
  cases st with
  | assign i e =>
    have := e.hasDerivAt d hd he c h0 h
    by_cases hj : j = i
    · subst hj; simpa [FStmt.run, FStmt.real, setReg] using this
    · simpa [FStmt.run, FStmt.real, setReg, hj] using h j
  | addAssign i e =>
    have := e.hasDerivAt d hd he c h0 h
    by_cases hj : j = i
    · subst hj; simpa [FStmt.run, FStmt.real, setReg, FBin.map] using (h j).fun_add this
    · simpa [FStmt.run, FStmt.real, setReg, hj] using h j

theorem runForward_w (p : List (FStmt ℝ)) (d : ℕ → Dual ℝ) : (fun i => (runForward p d i).w) = realForward p fun i => (d i).w := by
  induction p generalizing d with
  | nil => rfl
  | cons st p ih =>
    show (fun i => (runForward p (st.run d) i).w) = realForward p (st.real _)
    rw [ih, FStmt.run_w]

theorem runForward_hasDerivAt (p : List (FStmt ℝ)) (d : ℕ → Dual ℝ) (hd : ForwardDom p fun i => (d i).w)
    (he : ForwardErfOk p (fun i => (d i).w) fun i => (d i).df) (c : ℝ → ℕ → ℝ) (h0 : ∀ i, c 0 i = (d i).w)
    (h : ∀ i, HasDerivAt (fun t => c t i) (d i).df 0) (j : ℕ) : HasDerivAt (fun t => realForward p (c t) j) (runForward p d j).df 0 := by
  induction p generalizing d c with
  | nil => exact h j
  | cons st p ih =>
    have hw := st.run_w d
    refine ih (st.run d) ?_ ?_ (fun t => st.real (c t)) (fun i => ?_) fun i => st.hasDerivAt d hd.1 he.1 c h0 h i
    · rw [hw]; exact hd.2
    · rw [hw]
      convert! he.2 using 1
      funext i
      refine (HasDerivAt.deriv (st.hasDerivAt d hd.1 he.1 _ (fun i => by simp) (fun i => ?_) i)).symm
      simpa using ((hasDerivAt_id' (0 : ℝ)).mul_const (d i).df).const_add (d i).w
    · show st.real (c 0) i = _
      rw [show c 0 = fun i => (d i).w from funext h0, ← hw]

/-! ### Reverse mode -/

variable [HasInf ℝ] [LinAlg ℝ]
set_option linter.unusedSectionVars false

theorem FExpr.rev_shape (e : FExpr ℝ) : e.rev.shape = .scl := by
  induction e with
  | var i => rfl
  | lit c => rfl
  | un op e ih => simpa [FExpr.rev, Expr.mkUnary, Expr.shape, Expr.view, View.null] using ih
  | bin op l r ihl ihr =>
    show Expr.binShape l.rev.shape r.rev.shape = _
    rw [ihl, ihr]; rfl

theorem FExpr.rev_isIf (e : FExpr ℝ) : e.rev.isIf = false := by cases e <;> rfl

theorem FExpr.rev_wf (e : FExpr ℝ) : e.rev.WF := by
  induction e with
  | var i => exact ⟨rfl, rfl⟩
  | lit c => exact ⟨rfl, rfl⟩
  | un op e ih =>
    refine ⟨ih, rfl, fun h => ?_⟩
    rw [e.rev_isIf] at h; cases h
  | bin op l r ihl ihr =>
    refine ⟨ihl, ihr, ?_, ?_, fun _ => ⟨fun h => ?_, fun h => ?_⟩⟩
    · show (Expr.binShape l.rev.shape r.rev.shape).Ok
      rw [l.rev_shape, r.rev_shape]; exact ⟨rfl, rfl⟩
    · show binDimsOk l.rev.shape r.rev.shape (Expr.binShape l.rev.shape r.rev.shape)
      rw [l.rev_shape, r.rev_shape]; decide
    · rw [l.rev_isIf] at h; cases h
    · rw [r.rev_isIf] at h; cases h

theorem FExpr.rev_vars (e : FExpr ℝ) : ∀ w ∈ e.rev.vars, ∃ i ∈ e.vars, w = ⟨.scl, some i, some i⟩ := by
  induction e with
  | var i => intro w hw; exact ⟨i, by simp [FExpr.vars], by simpa [FExpr.rev, Expr.vars] using hw⟩
  | lit c => intro w hw; cases hw
  | un op e ih => exact ih
  | bin op l r ihl ihr =>
    intro w hw
    rcases List.mem_append.1 hw with h | h
    · obtain ⟨i, h1, h2⟩ := ihl w h
      exact ⟨i, Finset.mem_union_left _ h1, h2⟩
    · obtain ⟨i, h1, h2⟩ := ihr w h
      exact ⟨i, Finset.mem_union_right _ h1, h2⟩

theorem FExpr.rev_cviews (e : FExpr ℝ) : e.rev.cviews = [] := by
  induction e with
  | var i => rfl
  | lit c => rfl
  | un op e ih => exact ih
  | bin op l r ihl ihr =>
    show l.rev.cviews ++ r.rev.cviews = []
    rw [ihl, ihr]; rfl

theorem FExpr.rev_denote (e : FExpr ℝ) (m : ℕ → ℝ) : e.rev.denote m 0 = e.real m := by
  induction e with
  | var i => rfl
  | lit c => rfl
  | un op e ih => simp only [FExpr.rev, Expr.mkUnary, Expr.denote, ih, FUn.real_rev]; rfl
  | bin op l r ihl ihr =>
    simp only [FExpr.rev, Expr.mkBinary, Expr.denote, ite_self, ihl, ihr]
    cases op <;> rfl

theorem FExpr.rev_grad (e : FExpr ℝ) (d : ℕ → Dual ℝ) (he : e.ErfOk' d) (S : Finset ℕ) (hS : e.vars ⊆ S) (sd : ℕ → ℝ) :
    ∑ a ∈ S, e.rev.grad (fun i => (d i).w) sd a * (d a).df = sd 0 * (e.eval d).df := by
  induction e generalizing sd with
  | var i =>
    have hi : i ∈ S := hS (by simp [FExpr.vars])
    rw [Finset.sum_eq_single i]
    · simp [FExpr.rev, Expr.grad, addr, View.size, Shape.size, Shape.scl, FExpr.eval]
    · intro b _ hb
      have : ¬ (i ≤ b ∧ b < i + 1) := by omega
      simp only [FExpr.rev, Expr.grad, addr, View.size, Shape.size, Shape.scl, mul_one, Option.getD_some, if_neg this, zero_mul]
    · exact fun h => absurd hi h
  | lit c => simp [FExpr.rev, Expr.grad, FExpr.eval, Dual.ofVal]
  | un op e ih =>
    simp only [FExpr.rev, Expr.mkUnary, Expr.grad]
    rw [ih he.1 hS, FExpr.eval, FUn.map_df op _ he.2, FExpr.rev_denote, UOp.bmap_linear, FExpr.eval_w]
    simp only [Expr.denote, FExpr.rev_denote, FUn.real_rev]
    ring
  | bin op l r ihl ihr =>
    have hop : op.rev.isComparison = false := by cases op <;> rfl
    simp only [FExpr.rev, Expr.mkBinary, Expr.grad, hop, Bool.false_eq_true, if_false, add_mul, Finset.sum_add_distrib]
    rw [ihl he.1 (Finset.union_subset_left hS), ihr he.2 (Finset.union_subset_right hS), FExpr.eval, FBin.map_df]
    have hf : op.real (l.real fun i => (d i).w) (r.real fun i => (d i).w) = op.rev.real Shape.scl.isScl (l.real fun i => (d i).w) (r.real fun i => (d i).w) := by
      cases op <;> rfl
    have hs : Shape.scl.isScl = true := rfl
    have hw : (View.null (Expr.binShape Shape.scl Shape.scl)).shape.isScl = true := rfl
    rw [hs] at hf
    simp only [collapse, hw, hs, l.rev_shape, r.rev_shape, if_true, Bool.not_true, Bool.and_false, Bool.false_eq_true, if_false, bcast, Shape.bidx, ite_self, Expr.denote,
      FExpr.rev_denote, FExpr.eval_w, hf]
    rw [BOp.bl_linear, BOp.br_linear]
    ring

end

end FastAD
