import Verif.Props.Reverse
import Verif.Proof.Joint
import Verif.Proof.StatHistory

/-!
# Log-densities of statistical models

Property C37.  A model is a sum of log-densities (`joint`) whose operands are arbitrary well-formed expressions; its mathematical log-density (`logJoint`, Spec/Joint.lean) is written
with the densities of Spec/Density.lean.
-/

open scoped Topology

namespace FastAD

variable [HasInf ℝ] [LinAlg ℝ]

/-- **C37, one pass.**  `autodiff` of a model is defined, returns its log-density (if the matrix operands are symmetric), and adds to the adjoint of every element of a variable the
seed times the partial derivative of the log-density with respect to that element. -/
theorem C37_model_gradient [LawfulLinAlg] {t : Term} {ts : List Term} {s : St ℝ} {qv qa : ℕ} {jv ja : ℕ → ℝ} (hok : ∀ u ∈ t :: ts, u.Ok)
    (hal : (joint t ts).Alive s.vok s.aok) (hf : Fresh s (joint t ts).bindSize qv qa) (seed : ℝ) :
    ∃ s1 r, autodiff (bindExpr (joint t ts) qv qa jv ja s).1 (fun _ => seed) (bindExpr (joint t ts) qv qa jv ja s).2 = some (s1, r) ∧
      ((∀ u ∈ t :: ts, u.op.Adm u.rows (u.at s.val)) → r.read s1 1 = some (trunc 1 fun _ => logJoint (t :: ts) s.val)) ∧
      ∀ π, (joint t ts).Paired π → Set.InjOn π (joint t ts).adjCells → (∀ a ∈ (joint t ts).adjCells, π a ∉ (joint t ts).constCells) →
        ∀ a ∈ (joint t ts).adjCells, (∀ u ∈ t :: ts, u.SmoothAt (fun z => Function.update s.val (π a) z) (s.val (π a))) →
        HasDerivAt (fun z => seed * logJoint (t :: ts) (Function.update s.val (π a) z)) (s1.adj a - s.adj a) (s.val (π a)) := by
  have hwf := joint_wf hok
  have hsz : (joint t ts).size = 1 := by rw [Expr.size, joint_shape]; rfl
  obtain ⟨s1, r, h⟩ := bindExpr_autodiff (jv := jv) (ja := ja) hwf hal hf fun _ => seed
  have key : ∀ a ∈ (joint t ts).adjCells, s1.adj a - s.adj a = (joint t ts).grad s.val (fun _ => seed) a := fun a ha => by
    rw [h.adj a (adjCells_alive hal a ha)]; ring
  refine ⟨s1, r, h.run, fun hadm => ?_, fun π hπ hinj hc a ha hs => ?_⟩
  · have := h.value
    rw [hsz] at this
    rw [this]
    congr 1
    funext k
    simp only [trunc]
    split
    · exact joint_denote hok hadm k
    · rfl
  · rw [key a ha]
    refine (grad_partial hwf hπ hinj hc ha (joint_reg hok hs) fun _ => seed).congr_of_eventuallyEq ?_
    have hev : ∀ᶠ z in 𝓝 (s.val (π a)), ∀ u ∈ t :: ts, u.op.Adm u.rows (u.at (Function.update s.val (π a) z)) := by
      have : ∀ l : List Term, (∀ u ∈ l, ∀ᶠ z in 𝓝 (s.val (π a)), u.op.Adm u.rows (u.at (Function.update s.val (π a) z))) →
          ∀ᶠ z in 𝓝 (s.val (π a)), ∀ u ∈ l, u.op.Adm u.rows (u.at (Function.update s.val (π a) z)) := by
        intro l
        induction l with
        | nil => intro _; exact .of_forall fun z u hu => by cases hu
        | cons u l ih =>
          intro h
          filter_upwards [h u (List.mem_cons_self ..), ih fun u hu => h u (List.mem_cons_of_mem _ hu)] with z h1 h2 w hw
          rcases List.mem_cons.1 hw with rfl | hw
          · exact h1
          · exact h2 w hw
      exact this _ fun u hu => (hs u hu).symm
    filter_upwards [hev] with z hz
    rw [hsz, Finset.sum_range_one, joint_denote hok hz]

/-- **C37, any number of passes.**  After any sequence of legal calls, evaluating a bound model returns its log-density at the current values of the variables (if the matrix operands are
symmetric), and no evaluation changes adjoints. -/
theorem C37_model_current [LawfulLinAlg] {s : St ℝ} {cs : List (Call ℝ)} (hl : Legal s.vok s.aok ⟨s.val, [], []⟩ ⟨s, []⟩ cs) :
    ∃ w, (Session.mk s []).run cs = some w ∧
      ∀ o ∈ w.objs, ∀ t ts, o.src = joint t ts → (∀ u ∈ t :: ts, u.Ok) → (∀ u ∈ t :: ts, u.op.Adm u.rows (u.at (User.run ⟨s.val, [], []⟩ cs).vals)) →
        ∃ s' r, evaluate o.bound w.st = some (s', r) ∧ r.read s' 1 = some (trunc 1 fun _ => logJoint (t :: ts) (User.run ⟨s.val, [], []⟩ cs).vals) ∧ s'.adj = w.st.adj := by
  obtain ⟨w, hw, -, -, h⟩ := C07_evaluate_current hl
  refine ⟨w, hw, fun o ho t ts he hok hadm => ?_⟩
  obtain ⟨s', r, -, -, h1, -, h2, -, h3, -⟩ := h o ho
  have hsz : o.src.size = 1 := by rw [he, Expr.size, joint_shape]; rfl
  refine ⟨s', r, h1, ?_, h3⟩
  rw [hsz] at h2
  rw [h2, he]
  congr 1
  funext k
  simp only [trunc]
  split
  · exact joint_denote hok hadm k
  · rfl

/-- **C37, data members.**  What a log-density node keeps from its construction and earlier evaluations does not influence values and seeds, whatever the operands' values were then,
provided that its constant operands have not changed. -/
theorem C37_history_irrelevant (o : StatOp) (k : Kinds) (n : ℕ) (hs : o.Sound k n) {v0 v : Args ℝ} {h : List (Args ℝ)} (hc : ∀ w ∈ v :: h, SameConsts k v0 w) :
    ∃ c c' d f, (o.node k n).run v0 h = some c ∧ (o.node k n).feval c v = some (c', f) ∧ (o.node k n).once v = some (d, f) ∧
      ∀ seed, (o.node k n).beval c' v seed = (o.node k n).beval d v seed :=
  stat_history_irrelevant o k n hs hc

namespace Sample.Regression

/-- regression coefficients: value cells 0, 1 -/
def w : View := ⟨.vec 2, some 0, some 0⟩
/-- standard deviation: value cell 2 -/
def sigma : View := ⟨.scl, some 2, some 2⟩

/-- `normal_adj_log_pdf(y, dot(X, w), sigma)` with constant data y (3 observations) and a constant 3×2 design matrix -/
noncomputable def likelihood : Term :=
  ⟨.normalVVS, ⟨.const, .node, .leaf⟩, .ofList [.const (.vec 3) fun i => 2 * i, .mkDot (.const (.mat 3 2) fun i => i) (.var w), .var sigma]⟩
/-- `normal_adj_log_pdf(w, 0., 1.)` -/
noncomputable def prior : Term := ⟨.normalVSS, ⟨.leaf, .const, .const⟩, .ofList [.var w, .const .scl fun _ => 0, .const .scl fun _ => 1]⟩
/-- `uniform_adj_log_pdf(sigma, 0., 10.)` -/
noncomputable def hyper : Term := ⟨.uniformSSS, ⟨.leaf, .const, .const⟩, .ofList [.var sigma, .const .scl fun _ => 0, .const .scl fun _ => 10]⟩

theorem model_ok : ∀ u ∈ [likelihood, prior, hyper], u.Ok := by
  intro u hu
  simp only [List.mem_cons, List.not_mem_nil, or_false] at hu
  rcases hu with rfl | rfl | rfl
  · refine ⟨?_, 3, rfl, rfl, rfl, ?_, ?_, trivial⟩
    · simp [likelihood, Exprs.ofList, Exprs.WFs, Expr.WF, Expr.mkDot, Expr.shape, Expr.view, View.null, w, sigma, Shape.Ok, Shape.vec, Shape.mat, Shape.scl, Shape.ofDims, Expr.isIf]
    · simp [likelihood, Exprs.ofList, Exprs.toList, Expr.mkDot, Expr.isIf]
    · simp [likelihood, Exprs.ofList, Exprs.toList, Expr.mkDot, StatOp.slots, Expr.isConstView]
  · refine ⟨?_, 2, rfl, rfl, rfl, ?_, ?_, fun h => by cases h⟩
    · simp [prior, Exprs.ofList, Exprs.WFs, Expr.WF, w, Shape.Ok, Shape.vec, Shape.scl]
    · simp [prior, Exprs.ofList, Exprs.toList, Expr.isIf]
    · simp [prior, Exprs.ofList, Exprs.toList, StatOp.slots, Expr.isConstView]
  · refine ⟨?_, 1, rfl, rfl, rfl, ?_, ?_, trivial⟩
    · simp [hyper, Exprs.ofList, Exprs.WFs, Expr.WF, sigma, Shape.Ok, Shape.scl]
    · simp [hyper, Exprs.ofList, Exprs.toList, Expr.isIf]
    · simp [hyper, Exprs.ofList, Exprs.toList, StatOp.slots, Expr.isConstView]

theorem model_vars : ∀ x ∈ (joint likelihood [prior, hyper]).vars, x = w ∨ x = sigma := by
  simp [joint, Term.expr, likelihood, prior, hyper, Exprs.ofList, Expr.mkBinary, Expr.mkReduce, Expr.mkDot, Expr.vars, Exprs.varss]

theorem model_alive : (joint likelihood [prior, hyper]).Alive s.vok s.aok := by
  constructor
  · intro x hx
    rcases model_vars x hx with rfl | rfl <;> constructor <;> intro k hk <;>
      simp [w, sigma, View.size, Shape.size, Shape.scl, Shape.vec, s] at hk ⊢ <;> omega
  · intro c hc
    simp [joint, Term.expr, likelihood, prior, hyper, Exprs.ofList, Expr.mkBinary, Expr.mkReduce, Expr.mkDot, Expr.cviews, Exprs.cviewss] at hc

theorem model_paired : (joint likelihood [prior, hyper]).Paired id := by
  intro x hx k hk
  rcases model_vars x hx with rfl | rfl <;> rfl

theorem model_constCells : (joint likelihood [prior, hyper]).constCells = ∅ := rfl

theorem model_adjCells : (joint likelihood [prior, hyper]).adjCells = {0, 1, 2} := by decide

theorem model_smooth {E : Type} [NormedAddCommGroup E] [NormedSpace ℝ E] (ρ : E → ℕ → ℝ) (x0 : E) (h0 : 0 < ρ x0 2) (h1 : ρ x0 2 < 10) :
    ∀ u ∈ [likelihood, prior, hyper], u.SmoothAt ρ x0 := by
  intro u hu
  simp only [List.mem_cons, List.not_mem_nil, or_false] at hu
  rcases hu with rfl | rfl | rfl
  · refine ⟨?_, rfl, .of_forall fun _ => trivial, ?_, trivial, fun h => by cases h⟩
    · simp [likelihood, Exprs.ofList, Exprs.Regs, Expr.Reg, Expr.mkDot]
    · intro i hi
      simpa [likelihood, Term.at, Exprs.ofList, Exprs.toList, Expr.denote, sigma, addr, pdim, show i = 0 by simpa [pdim] using hi] using h0
  · refine ⟨?_, rfl, .of_forall fun _ => trivial, ?_, trivial, fun h => by cases h⟩
    · simp [prior, Exprs.ofList, Exprs.Regs, Expr.Reg]
    · intro i hi
      simp [prior, Term.at, Exprs.ofList, Exprs.toList, Expr.denote]
  · refine ⟨?_, rfl, .of_forall fun _ => trivial, ?_, trivial, fun h => by cases h⟩
    · simp [hyper, Exprs.ofList, Exprs.Regs, Expr.Reg]
    · intro i hi
      obtain rfl : i = 0 := by omega
      simp [hyper, Term.at, Exprs.ofList, Exprs.toList, Expr.denote, sigma, addr, pidx, h0, h1]

end Sample.Regression

/-- Bayesian linear regression at w = (1, 2), sigma = 3: the adjoint of sigma becomes the derivative of the log-posterior with respect to sigma. -/
example [LawfulLinAlg] : ∃ s1 r, autodiff (bindExpr (joint Sample.Regression.likelihood [Sample.Regression.prior, Sample.Regression.hyper]) 10 10 0 0 Sample.s).1 (fun _ => 1)
      (bindExpr (joint Sample.Regression.likelihood [Sample.Regression.prior, Sample.Regression.hyper]) 10 10 0 0 Sample.s).2 = some (s1, r) ∧
    r.read s1 1 = some (trunc 1 fun _ => logJoint [Sample.Regression.likelihood, Sample.Regression.prior, Sample.Regression.hyper] Sample.s.val) ∧
    HasDerivAt (fun z => 1 * logJoint [Sample.Regression.likelihood, Sample.Regression.prior, Sample.Regression.hyper] (Function.update Sample.s.val 2 z)) (s1.adj 2 - Sample.s.adj 2) (Sample.s.val 2) := by
  obtain ⟨s1, r, h1, h2, h3⟩ := C37_model_gradient (jv := 0) (ja := 0) Sample.Regression.model_ok Sample.Regression.model_alive (qv := 10) (qa := 10)
    (by constructor <;> intro k _ <;> simp [Sample.s] <;> omega) 1
  refine ⟨s1, r, h1, h2 ?_, h3 id Sample.Regression.model_paired (Set.injOn_id _) (by simp [Sample.Regression.model_constCells]) 2 (by simp [Sample.Regression.model_adjCells]) ?_⟩
  · intro u hu
    simp only [List.mem_cons, List.not_mem_nil, or_false] at hu
    rcases hu with rfl | rfl | rfl <;> trivial
  · exact Sample.Regression.model_smooth _ _ (by simp [Sample.s]; norm_num) (by simp [Sample.s]; norm_num)

/-- The log-posterior of the sample in closed form: likelihood, prior and hyperprior. -/
example (m : ℕ → ℝ) (h0 : 0 < m 2) (h1 : m 2 < 10) : logJoint [Sample.Regression.likelihood, Sample.Regression.prior, Sample.Regression.hyper] m =
    normalLog false true 3 (Sample.Regression.likelihood.at m) + normalLog true true 2 (Sample.Regression.prior.at m) + uniformLog true true 1 (Sample.Regression.hyper.at m) := by
  have h := Sample.Regression.model_smooth (fun _ : ℝ => m) 0 h0 h1
  simp only [logJoint, List.map_cons, List.map_nil, List.sum_cons, List.sum_nil, Term.logDensity, add_zero, ← add_assoc]
  rw [orNegInf, if_pos (h _ (by simp)).valid, orNegInf, if_pos (h _ (by simp)).valid, orNegInf, if_pos (h _ (by simp)).valid]
  rfl

/-- a model bound, differentiated, its parameters changed, evaluated again -/
example [LawfulLinAlg] : ∃ w, (Session.mk Sample.s []).run [.bind (joint Sample.Regression.likelihood [Sample.Regression.prior, Sample.Regression.hyper]) 10 10 0 0, .autodiff 0 fun _ => 1, .setVal 2 5] = some w ∧
    ∀ o ∈ w.objs, o.src = joint Sample.Regression.likelihood [Sample.Regression.prior, Sample.Regression.hyper] → ∃ s' r, evaluate o.bound w.st = some (s', r) ∧
      r.read s' 1 = some (trunc 1 fun _ => logJoint [Sample.Regression.likelihood, Sample.Regression.prior, Sample.Regression.hyper] (Function.update Sample.s.val 2 5)) := by
  obtain ⟨w, hw, h⟩ := C37_model_current (s := Sample.s)
    (cs := [.bind (joint Sample.Regression.likelihood [Sample.Regression.prior, Sample.Regression.hyper]) 10 10 0 0, .autodiff 0 fun _ => 1, .setVal 2 5])
    ⟨⟨joint_wf Sample.Regression.model_ok, Sample.Regression.model_alive, by constructor <;> intro k _ <;> simp [Sample.s] <;> omega⟩, fun w1 _ =>
      ⟨by simp [LegalCall, User.step], fun w2 _ => ⟨by simp [LegalCall, Sample.s], fun w3 _ => trivial⟩⟩⟩
  refine ⟨w, hw, fun o ho he => ?_⟩
  obtain ⟨s', r, h1, h2, -⟩ := h o ho _ _ he Sample.Regression.model_ok (by
    intro u hu
    simp only [List.mem_cons, List.not_mem_nil, or_false] at hu
    rcases hu with rfl | rfl | rfl <;> trivial)
  exact ⟨s', r, h1, h2⟩

/-- a normal node with constant data that was constructed with an invalid sigma and evaluated twice -/
example : ∃ c c' d f, (StatOp.normalVSS.node ⟨.const, .leaf, .leaf⟩ 3).run (⟨fun i => i, fun _ => 1, fun _ => -1⟩ : Args ℝ)
      [⟨fun i => i, fun _ => 5, fun _ => 0⟩, ⟨fun i => i, fun _ => 2, fun _ => 4⟩] = some c ∧
    (StatOp.normalVSS.node ⟨.const, .leaf, .leaf⟩ 3).feval c ⟨fun i => i, fun _ => 7, fun _ => 8⟩ = some (c', f) ∧
    (StatOp.normalVSS.node ⟨.const, .leaf, .leaf⟩ 3).once (⟨fun i => i, fun _ => 7, fun _ => 8⟩ : Args ℝ) = some (d, f) ∧
    ∀ seed, (StatOp.normalVSS.node ⟨.const, .leaf, .leaf⟩ 3).beval c' ⟨fun i => i, fun _ => 7, fun _ => 8⟩ seed =
      (StatOp.normalVSS.node ⟨.const, .leaf, .leaf⟩ 3).beval d ⟨fun i => i, fun _ => 7, fun _ => 8⟩ seed :=
  C37_history_irrelevant .normalVSS ⟨.const, .leaf, .leaf⟩ 3 (fun _ => by norm_num) (v0 := ⟨fun i => i, fun _ => 1, fun _ => -1⟩) (by
    intro w hw s hs
    simp only [List.mem_cons, List.not_mem_nil, or_false] at hw
    cases s <;> simp [Kinds.get] at hs
    rcases hw with rfl | rfl | rfl <;> rfl)

end FastAD
