import Verif.Props.Joint
import Verif.Props.Loop
import Verif.Proof.Follow
import Verif.Proof.LikelihoodLoop

/-!
# Log-densities of data that are exchanged between evaluations

Property C52.  A `ConstantView` refers to data which the program may change between evaluations (as the row buffers of README "Simple Linear Regression Model").  Some log-density nodes read
constants anew at every evaluation, others keep what their constructor computed from them (`StatOp.keeps`, Spec/Density.lean).  Constants that are scalars hold their values themselves
(constant.hpp:32-34), so that only array operands matter for the negative part.
-/

open scoped Topology

namespace FastAD

variable [HasInf ℝ] [LinAlg ℝ]

/-- **C52 (partial).** Whatever the values of the operands were at construction and at earlier evaluations, as long as those constants which the constructor used keep their values, an evaluation
gives the log-density at the *current* values of all operands (-infinity for invalid ones), and the following `beval` the seeds of a node constructed just now.
Missing: constants used by the constructor, for which it is false (`C52_not_followed`). -/
theorem C52_followed_partial [LawfulLinAlg] (o : StatOp) (k : Kinds) (n : ℕ) (hs : o.Sound k n) {v0 v : Args ℝ} {h : List (Args ℝ)} (ha : o.Adm n v)
    (hc : ∀ w ∈ v :: h, ∀ s, o.keeps k s = true → w.get s = v0.get s) :
    ∃ c c' d, (o.node k n).run v0 h = some c ∧ (o.node k n).feval c v = some (c', orNegInf (o.valid n) (o.logp n) v) ∧
      (o.node k n).once v = some (d, orNegInf (o.valid n) (o.logp n) v) ∧ ∀ seed, (o.node k n).beval c' v seed = (o.node k n).beval d v seed := by
  obtain ⟨c, c', d, f, h1, h2, h3, h4⟩ := stat_history_kept o k n hs hc
  obtain ⟨e, he⟩ := o.once_eq k n hs v
  have hf : f = orNegInf (o.valid n) (o.logp n) v := by
    rw [← StatOp.real_eq o n v ha]
    exact congrArg Prod.snd (Option.some.inj (h3.symm.trans he))
  subst hf
  exact ⟨c, c', d, h1, h2, h3, h4⟩

/-- **C52 is false for every array constant which the constructor uses**: there are (symmetric, where they are matrices) operand values such that changing nothing but this operand after the
construction makes the node evaluate to something else than the log-density, although the new values are valid.  One observation suffices. -/
theorem C52_not_followed [LawfulLinAlg] (o : StatOp) (k : Kinds) (s : Slot) (hs : o.Sound k 1) (hk : o.keeps k s = true) (harr : (o.shape 1 s).isScl = false) :
    ∃ v0 v : Args ℝ, o.Adm 1 v0 ∧ o.Adm 1 v ∧ o.valid 1 v ∧ (∀ s' ≠ s, v.get s' = v0.get s') ∧
      ∃ c c' f, (o.node k 1).ctor v0 = some c ∧ (o.node k 1).feval c v = some (c', f) ∧ f ≠ o.logp 1 v :=
  not_followed o k s hs hk harr

/-- **C52, loops over data.** A statistical model whose data are constant views of buffers, at positions where the nodes read them anew (`StatOp.Fits`), is differentiated once for every row of a
data set that is copied into the buffers.  For any number of rows with any contents the loop is defined, accumulates the log-density of the whole data set, and each adjoint grows by the partial
derivative of that log-density. -/
theorem C52_likelihood_loop [LawfulLinAlg] {t : Term} {ts : List Term} {s s1 : St ℝ} {qv qa : ℕ} {jv ja : ℕ → ℝ} (hok : ∀ u ∈ t :: ts, u.Ok)
    (hal : (joint t ts).Alive s.vok s.aok) (hf : Fresh s (joint t ts).bindSize qv qa) (hl : Later (bindExpr (joint t ts) qv qa jv ja s).2 s1) (seed : ℝ)
    {rows : List (List (ℕ × ℝ))} (hrow : ∀ row ∈ rows, ∀ w ∈ row, s.vok w.1 = true) (hadm : ∀ m ∈ rowStores s1.val rows, ∀ u ∈ t :: ts, u.op.Adm u.rows (u.at m)) :
    ∃ s', dataLoop (bindExpr (joint t ts) qv qa jv ja s).1 (fun _ => seed) [] rows 0 s1 = some (s', total (logJoint (t :: ts)) s1.val rows) ∧
      ∀ π, (joint t ts).Paired π → Set.InjOn π (joint t ts).adjCells → ∀ a ∈ (joint t ts).adjCells, π a ∉ (joint t ts).constCells → (∀ row ∈ rows, ∀ w ∈ row, w.1 ≠ π a) →
        (∀ m ∈ rowStores s1.val rows, ∀ u ∈ t :: ts, u.SmoothAt (fun z => Function.update m (π a) z) (m (π a))) →
        HasDerivAt (fun z => seed * total (logJoint (t :: ts)) (Function.update s1.val (π a) z) rows) (s'.adj a - s1.adj a) (s1.val (π a)) := by
  have hsz : (joint t ts).size = 1 := by rw [Expr.size, joint_shape]; rfl
  obtain ⟨hpl, htg, hta⟩ := joint_targets t ts
  obtain ⟨s', h1, -, h3⟩ := C39_data_loop_partial (jv := jv) (ja := ja) (resets := []) (joint_program hok) hal hf hl (joint_stable t ts) (by rw [hsz]; exact one_pos) (fun _ => seed) (by simp) hrow 0
  refine ⟨s', ?_, fun π hπ hinj a ha hc hw hsm => ?_⟩
  · rw [h1, zero_add]
    congr 2
    simp only [total]
    refine congrArg List.sum (List.map_congr_left fun m hm => ?_)
    rw [joint_result, joint_denote hok (hadm m hm)]
  · have h := h3 π hπ hinj (by simp [htg]) (by simp [hta]) a ha hc (by simp [hpl]) (by simp) hw fun m hm => joint_regSeq hok (hsm m hm)
    refine h.congr_of_eventuallyEq ?_
    have hcell : ∀ m ∈ rowStores s1.val rows, m (π a) = s1.val (π a) := by
      have : ∀ (rows : List (List (ℕ × ℝ))) (m0 : ℕ → ℝ), (∀ row ∈ rows, ∀ w ∈ row, w.1 ≠ π a) → ∀ m ∈ rowStores m0 rows, m (π a) = m0 (π a) := by
        intro rows
        induction rows with
        | nil => intro m0 _ m hm; cases hm
        | cons row rows ih =>
          intro m0 h m hm
          have h0 : overlay m0 row (π a) = m0 (π a) := overlay_apply_of_notMem (h row (by simp))
          rcases List.mem_cons.1 hm with rfl | hm
          · exact h0
          · rw [ih (overlay m0 row) (fun r hr => h r (by simp [hr])) m hm, h0]
      exact this rows s1.val hw
    have hev : ∀ᶠ z in 𝓝 (s1.val (π a)), ∀ m ∈ rowStores s1.val rows, ∀ u ∈ t :: ts, u.op.Adm u.rows (u.at (Function.update m (π a) z)) := by
      have key : ∀ {X : Type} (l : List X) (P : X → ℝ → Prop), (∀ x ∈ l, ∀ᶠ z in 𝓝 (s1.val (π a)), P x z) → ∀ᶠ z in 𝓝 (s1.val (π a)), ∀ x ∈ l, P x z := by
        intro X l P
        induction l with
        | nil => intro _; exact .of_forall fun z x hx => by cases hx
        | cons x l ih =>
          intro h
          filter_upwards [h x (List.mem_cons_self ..), ih fun y hy => h y (List.mem_cons_of_mem _ hy)] with z h1 h2 y hy
          rcases List.mem_cons.1 hy with rfl | hy
          · exact h1
          · exact h2 y hy
      refine key _ _ fun m hm => key _ _ fun u hu => ?_
      have := (hsm m hm u hu).symm
      rwa [hcell m hm] at this
    filter_upwards [hev] with z hz
    simp only [total]
    rw [rowStores_update hw, List.map_map, List.map_map, ← List.sum_map_mul_left]
    refine congrArg List.sum (List.map_congr_left fun m hm => ?_)
    simp only [Function.comp]
    rw [hsz, Finset.sum_range_one, joint_result, joint_denote hok (hz m hm)]

namespace Sample.Batch

/-- regression coefficients: value cells 0, 1 -/
def w : View := ⟨.vec 2, some 0, some 0⟩
/-- standard deviation: value cell 2 -/
def sigma : View := ⟨.scl, some 2, some 2⟩

/-- `normal_adj_log_pdf(y, dot(X, w), sigma)` where y (2 observations) is a view of the buffer at cell 3 and X (2×2) of the buffer at cell 5 -/
noncomputable def batch : Term :=
  ⟨.normalVVS, ⟨.const, .node, .leaf⟩, .ofList [.cview (.vec 2) (some 3), .mkDot (.cview (.mat 2 2) (some 5)) (.var w), .var sigma]⟩

/-- w = (1, 2), sigma = 3, buffers at cells 3 to 8; everything from cell 9 on is free -/
noncomputable def s : St ℝ := ⟨fun a => (a : ℝ) + 1, fun _ => 0, fun a => decide (a < 9), fun a => decide (a < 9)⟩

/-- two batches: y = (4, 5), X = (1 2; 3 4) and y = (0, -1), X = (0 1; 1 0) -/
def rows : List (List (ℕ × ℝ)) := [[(3, 4), (4, 5), (5, 1), (6, 3), (7, 2), (8, 4)], [(3, 0), (4, -1), (5, 0), (6, 1), (7, 1), (8, 0)]]

omit [HasInf ℝ] [LinAlg ℝ] in
theorem batch_ok : ∀ u ∈ [batch], u.Ok := by
  intro u hu
  obtain rfl := List.mem_singleton.1 hu
  refine ⟨?_, 2, rfl, rfl, rfl, ?_, ?_, trivial⟩
  · simp [batch, Exprs.ofList, Exprs.WFs, Expr.WF, Expr.mkDot, Expr.shape, Expr.view, View.null, w, sigma, Shape.Ok, Shape.vec, Shape.mat, Shape.scl, Shape.ofDims, Expr.isIf]
  · simp [batch, Exprs.ofList, Exprs.toList, Expr.mkDot, Expr.isIf]
  · simp [batch, Exprs.ofList, Exprs.toList, Expr.mkDot, StatOp.slots, Expr.isConstView, StatOp.keeps]

omit [HasInf ℝ] [LinAlg ℝ] in
theorem batch_vars : ∀ x ∈ (joint batch []).vars, x = w ∨ x = sigma := by
  simp [joint, Term.expr, batch, Exprs.ofList, Expr.mkReduce, Expr.mkDot, Expr.vars, Exprs.varss]

omit [HasInf ℝ] [LinAlg ℝ] in
theorem batch_alive : (joint batch []).Alive s.vok s.aok := by
  constructor
  · intro x hx
    rcases batch_vars x hx with rfl | rfl <;> constructor <;> intro k hk <;> simp [w, sigma, View.size, Shape.size, Shape.scl, Shape.vec, s] at hk ⊢ <;> omega
  · intro c hc
    simp [joint, Term.expr, batch, Exprs.ofList, Expr.mkReduce, Expr.mkDot, Expr.cviews, Exprs.cviewss] at hc
    rcases hc with rfl | rfl <;> intro k hk <;> simp [Shape.size, Shape.vec, Shape.mat, s] at hk ⊢ <;> omega

omit [HasInf ℝ] [LinAlg ℝ] in
theorem batch_paired : (joint batch []).Paired id := by
  intro x hx k hk
  rcases batch_vars x hx with rfl | rfl <;> rfl

omit [HasInf ℝ] [LinAlg ℝ] in
theorem batch_adjCells : (joint batch []).adjCells = {0, 1, 2} := by decide

omit [HasInf ℝ] [LinAlg ℝ] in
theorem batch_constCells : (joint batch []).constCells = {3, 4, 5, 6, 7, 8} := by decide

theorem batch_smooth {E : Type} [NormedAddCommGroup E] [NormedSpace ℝ E] (ρ : E → ℕ → ℝ) (x0 : E) (h0 : 0 < ρ x0 2) : ∀ u ∈ [batch], u.SmoothAt ρ x0 := by
  intro u hu
  obtain rfl := List.mem_singleton.1 hu
  refine ⟨?_, rfl, .of_forall fun _ => trivial, ?_, trivial, fun h => by cases h⟩
  · simp [batch, Exprs.ofList, Exprs.Regs, Expr.Reg, Expr.mkDot]
  · intro i hi
    simpa [batch, Term.at, Exprs.ofList, Exprs.toList, Expr.denote, sigma, addr, pdim, show i = 0 by simpa [pdim] using hi] using h0

end Sample.Batch

/-- The likelihood of a regression model over two batches: the adjoint of sigma becomes the derivative of the log-likelihood of all four observations. -/
example [LawfulLinAlg] : ∃ s', dataLoop (bindExpr (joint Sample.Batch.batch []) 10 10 0 0 Sample.Batch.s).1 (fun _ => 1) [] Sample.Batch.rows 0
      (bindExpr (joint Sample.Batch.batch []) 10 10 0 0 Sample.Batch.s).2 =
        some (s', total (logJoint [Sample.Batch.batch]) (bindExpr (joint Sample.Batch.batch []) 10 10 0 0 Sample.Batch.s).2.val Sample.Batch.rows) ∧
    HasDerivAt (fun z => 1 * total (logJoint [Sample.Batch.batch]) (Function.update (bindExpr (joint Sample.Batch.batch []) 10 10 0 0 Sample.Batch.s).2.val 2 z) Sample.Batch.rows)
      (s'.adj 2 - (bindExpr (joint Sample.Batch.batch []) 10 10 0 0 Sample.Batch.s).2.adj 2) ((bindExpr (joint Sample.Batch.batch []) 10 10 0 0 Sample.Batch.s).2.val 2) := by
  have hw : ∀ row ∈ Sample.Batch.rows, ∀ w ∈ row, 2 < w.1 ∧ w.1 < 9 := by
    simp [Sample.Batch.rows]
    constructor <;> intro a b h <;> rcases h with h | h | h | h | h | h <;> simp [h.1]
  obtain ⟨s', h1, h2⟩ := C52_likelihood_loop (jv := 0) (ja := 0) (qv := 10) (qa := 10) (s := Sample.Batch.s) (rows := Sample.Batch.rows) Sample.Batch.batch_ok Sample.Batch.batch_alive
    (by constructor <;> intro k _ <;> simp [Sample.Batch.s] <;> omega) ⟨fun _ h => h, fun _ h => h⟩ 1
    (fun row hr w hw' => by have := hw row hr w hw'; simp [Sample.Batch.s]; omega)
    (fun m _ u hu => by obtain rfl := List.mem_singleton.1 hu; trivial)
  refine ⟨s', h1, h2 id Sample.Batch.batch_paired (Set.injOn_id _) 2 (by simp [Sample.Batch.batch_adjCells]) (by simp [Sample.Batch.batch_constCells]) ?_ ?_⟩
  · intro row hr w hw'
    have := hw row hr w hw'
    simp; omega
  · intro m hm
    refine Sample.Batch.batch_smooth _ _ ?_
    simp only [Sample.Batch.rows, rowStores, List.mem_cons, List.not_mem_nil, or_false] at hm
    have h2 : (bindExpr (joint Sample.Batch.batch []) 10 10 0 0 Sample.Batch.s).2.val 2 = 3 := by
      simp only [bindExpr, St.allocate, fillRange, Sample.Batch.s]
      rw [if_neg (by omega)]
      norm_num
    rcases hm with rfl | rfl <;> simp [overlay, h2]

/-- A Cauchy node with constant data follows when the data are exchanged twice: nothing is kept. -/
example [LawfulLinAlg] : ∃ c c' d, ((StatOp.cauchyScl true).node ⟨.const, .leaf, .const⟩ 2).run (⟨fun i => i, fun _ => 1, fun _ => 2⟩ : Args ℝ) [⟨fun _ => 5, fun _ => 1, fun _ => 2⟩] = some c ∧
    ((StatOp.cauchyScl true).node ⟨.const, .leaf, .const⟩ 2).feval c ⟨fun _ => 7, fun _ => 1, fun _ => 2⟩ =
      some (c', orNegInf (ScaleOk true 2) (cauchyLog true true 2) ⟨fun _ => 7, fun _ => 1, fun _ => 2⟩) ∧
    ((StatOp.cauchyScl true).node ⟨.const, .leaf, .const⟩ 2).once (⟨fun _ => 7, fun _ => 1, fun _ => 2⟩ : Args ℝ) =
      some (d, orNegInf (ScaleOk true 2) (cauchyLog true true 2) ⟨fun _ => 7, fun _ => 1, fun _ => 2⟩) ∧
    ∀ seed, ((StatOp.cauchyScl true).node ⟨.const, .leaf, .const⟩ 2).beval c' ⟨fun _ => 7, fun _ => 1, fun _ => 2⟩ seed =
      ((StatOp.cauchyScl true).node ⟨.const, .leaf, .const⟩ 2).beval d ⟨fun _ => 7, fun _ => 1, fun _ => 2⟩ seed :=
  C52_followed_partial (.cauchyScl true) ⟨.const, .leaf, .const⟩ 2 trivial trivial (by simp [StatOp.keeps])

/-- A normal node with constant data (mean and sigma variables) does not: it is used in C52_not_followed with the operand x. -/
example [LawfulLinAlg] : ∃ v0 v : Args ℝ, (∀ s' ≠ Slot.x, v.get s' = v0.get s') ∧
    ∃ c c' f, (StatOp.normalVSS.node ⟨.const, .leaf, .leaf⟩ 1).ctor v0 = some c ∧ (StatOp.normalVSS.node ⟨.const, .leaf, .leaf⟩ 1).feval c v = some (c', f) ∧ f ≠ normalLog true true 1 v := by
  obtain ⟨v0, v, -, -, -, h, h'⟩ := C52_not_followed .normalVSS ⟨.const, .leaf, .leaf⟩ .x (fun _ => one_pos) rfl rfl
  exact ⟨v0, v, h, h'⟩

end FastAD
