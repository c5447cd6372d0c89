import Verif.Props.Samples
import Verif.Proof.Session
import Verif.Proof.Linear

/-!
# Reverse mode on side-effect-free expressions

Properties C01, C07, C08, C09, C10, C16, C17 (and C05 for side-effect-free expressions).
-/

open scoped Topology

namespace FastAD

variable [HasInf ℝ] [LinAlg ℝ]

/-- **C01.** `autodiff` of a bound side-effect-free expression is defined, and it adds to every adjoint the derivative of
`∑ₖ seed k * e_k`.  First in the form of directional derivatives: for every direction `u` of the
variables in which the expression is regular, the directional derivative is the pairing of `u` with the adjoint
increments.  Second, element by element: the increment of the adjoint of one variable element is the partial derivative with respect
to that element.  `π` maps an adjoint cell to the value cell of the same variable element. -/
theorem C01_reverse_gradient [LawfulLinAlg] {e : Expr ℝ} {s : St ℝ} {qv qa : ℕ} {jv ja : ℕ → ℝ} (hwf : e.WF)
    (hal : e.Alive s.vok s.aok) (hf : Fresh s e.bindSize qv qa) (seed : ℕ → ℝ) :
    ∃ s1 r, autodiff (bindExpr e qv qa jv ja s).1 seed (bindExpr e qv qa jv ja s).2 = some (s1, r) ∧
      (∀ π u, e.Paired π → (∀ c ∈ e.constCells, u c = 0) → e.Reg (shift s.val u) 0 →
        HasDerivAt (fun t => ∑ k ∈ Finset.range e.size, seed k * e.denote (shift s.val u t) k)
          (∑ a ∈ e.adjCells, (s1.adj a - s.adj a) * u (π a)) 0) ∧
      (∀ π, e.Paired π → Set.InjOn π e.adjCells → (∀ a ∈ e.adjCells, π a ∉ e.constCells) → ∀ a ∈ e.adjCells,
        e.Reg (fun t => Function.update s.val (π a) t) (s.val (π a)) →
        HasDerivAt (fun t => ∑ k ∈ Finset.range e.size, seed k * e.denote (Function.update s.val (π a) t) k)
          (s1.adj a - s.adj a) (s.val (π a))) := by
  obtain ⟨s1, r, h⟩ := bindExpr_autodiff (jv := jv) (ja := ja) hwf hal hf seed
  have key : ∀ a ∈ e.adjCells, s1.adj a - s.adj a = e.grad s.val seed a := fun a ha => by
    rw [h.adj a (adjCells_alive hal a ha)]; ring
  refine ⟨s1, r, h.run, fun π u hπ hu hreg => ?_, fun π hπ hinj hc a ha hreg => ?_⟩
  · rw [Finset.sum_congr rfl fun a ha => by rw [key a ha]]
    exact grad_directional hwf hπ hu hreg seed
  · rw [key a ha]
    exact grad_partial hwf hπ hinj hc ha hreg seed

/-- The hypotheses of C01 hold for `sum(x * sin(v)) + log(x)` at `x = 1`, `v = (2, 3)`; in particular the adjoint of `x` becomes
a number `d` that is the derivative with respect to `x`. -/
example [LawfulLinAlg] : ∃ s1 r, autodiff (bindExpr Sample.e 10 10 0 0 Sample.s).1 1 (bindExpr Sample.e 10 10 0 0 Sample.s).2 = some (s1, r) ∧
    HasDerivAt (fun t => ∑ k ∈ Finset.range Sample.e.size, (1 : ℕ → ℝ) k * Sample.e.denote (Function.update Sample.s.val 0 t) k)
      (s1.adj 0 - Sample.s.adj 0) (Sample.s.val 0) := by
  obtain ⟨s1, r, h, -, h2⟩ := C01_reverse_gradient (jv := 0) (ja := 0) Sample.e_wf Sample.e_alive Sample.e_fresh 1
  refine ⟨s1, r, h, h2 id Sample.e_paired (Set.injOn_id _) (by simp [Sample.e_constCells]) 0 (by simp [Sample.e_adjCells]) ?_⟩
  exact Sample.e_reg _ _ (by simp [Sample.s])

/-- **C07.** After any sequence of legal calls (bindings of arbitrary expressions, evaluations, differentiations, assignments to
variables, buffers and adjoints) starting from any memory contents, `evaluate` of any of the bound objects is defined and returns
the value of its expression at the values the user's memory holds at that moment (`vals` of the user's view).  It changes no adjoint at all and no value
of the user's memory, and a second `evaluate` returns the same value. -/
theorem C07_evaluate_current {s : St ℝ} {cs : List (Call ℝ)} (hl : Legal s.vok s.aok ⟨s.val, [], []⟩ ⟨s, []⟩ cs) :
    ∃ w, (Session.mk s []).run cs = some w ∧
      (∀ a, s.vok a = true → w.st.val a = (User.run ⟨s.val, [], []⟩ cs).vals a) ∧
      w.objs.map (·.src) = (User.run ⟨s.val, [], []⟩ cs).objs.map (·.1) ∧
      ∀ o ∈ w.objs, ∃ s' r s'' r', evaluate o.bound w.st = some (s', r) ∧ evaluate o.bound s' = some (s'', r') ∧
        r.read s' o.src.size = some (trunc o.src.size (o.src.denote (User.run ⟨s.val, [], []⟩ cs).vals)) ∧
        r'.read s'' o.src.size = some (trunc o.src.size (o.src.denote (User.run ⟨s.val, [], []⟩ cs).vals)) ∧
        s'.adj = w.st.adj ∧ ∀ a, s.vok a = true → s'.val a = w.st.val a := by
  obtain ⟨w, hw, h⟩ := (Inv.init s).run cs hl
  refine ⟨w, hw, h.val, ?_, fun o ho => ?_⟩
  · refine List.ext_getElem (by simp [h.len]) fun i h1 h2 => ?_
    simp only [List.length_map] at h1 h2
    simp only [List.getElem_map]
    exact (h.objs i h1 h2).src
  · obtain ⟨i, hi, rfl⟩ := List.getElem_of_mem ho
    have hok := h.objs i hi (h.len ▸ hi)
    have hr : ∀ a ∈ w.objs[i].src.reads, w.st.val a = (User.run ⟨s.val, [], []⟩ cs).vals a :=
      fun a ha => h.val a (reads_alive hok.alive a ha)
    have hframe : ∀ a, s.vok a = true → a ∉ w.objs[i].BV := fun a ha hb => by
      have := (hok.bv a hb).2
      rw [ha] at this; cases this
    obtain ⟨s', r, h1⟩ := hok.bnd.evaluate hr
    have hok' : Bnd w.objs[i].src w.objs[i].bound w.objs[i].BV w.objs[i].BA s'.vok s'.aok := by
      rw [h1.vok, h1.aok]; exact hok.bnd
    obtain ⟨s'', r', h2⟩ := hok'.evaluate (m := (User.run ⟨s.val, [], []⟩ cs).vals) fun a ha => by
      rw [h1.frame a (hframe a (reads_alive hok.alive a ha)), hr a ha]
    exact ⟨s', r, s'', r', h1.run, h2.run, h1.value s' rfl rfl, h2.value s'' rfl rfl, h1.adj,
      fun a ha => h1.frame a (hframe a ha)⟩

/-- a history for C07 and C08: bind, differentiate, change `x`, evaluate, reset the adjoint of `x`, differentiate, differentiate the same
evaluation again with another seed -/
def Sample.calls : List (Call ℝ) :=
  [.bind Sample.e 10 10 (fun _ => 7) (fun _ => 8), .autodiff 0 (fun _ => 1), .setVal 0 5, .evaluate 0, .setAdj 0 0,
    .autodiff 0 (fun _ => 2), .evaluateAdj 0 (fun _ => 3)]

theorem Sample.calls_legal : Legal Sample.s.vok Sample.s.aok ⟨Sample.s.val, [], []⟩ ⟨Sample.s, []⟩ Sample.calls := by
  refine ⟨⟨Sample.e_wf, Sample.e_alive, Sample.e_fresh⟩, fun w1 _ => ?_⟩
  refine ⟨by simp [LegalCall, User.step], fun w2 _ => ?_⟩
  refine ⟨by simp [LegalCall, Sample.s], fun w3 _ => ?_⟩
  refine ⟨by simp [LegalCall, User.step], fun w4 _ => ?_⟩
  refine ⟨by simp [LegalCall, Sample.s], fun w5 _ => ?_⟩
  refine ⟨by simp [LegalCall, User.step], fun w6 _ => ?_⟩
  refine ⟨⟨Sample.e, _, rfl, fun c _ => rfl⟩, fun w7 _ => trivial⟩

/-- the values the user sees at the end of the sample history -/
example : (User.run ⟨Sample.s.val, [], []⟩ Sample.calls).vals = Function.update Sample.s.val 0 5 := rfl

example : ∃ w, (Session.mk Sample.s []).run Sample.calls = some w ∧ w.st.val 0 = 5 := by
  obtain ⟨w, hw, h1, -⟩ := C07_evaluate_current Sample.calls_legal
  refine ⟨w, hw, ?_⟩
  rw [h1 0 (by simp [Sample.s])]
  rfl

/-- **C08.** There is a function `G` that is the gradient (`IsGradient`) such that after any sequence of legal calls from any initial memory
every adjoint of the user's is obtained from its initial value by adding one gradient per differentiation, evaluated at the variable values
of that moment, and by the user's own assignments. -/
theorem C08_adjoints_accumulate [LawfulLinAlg] : ∃ G, IsGradient G ∧
    ∀ {s : St ℝ} {cs : List (Call ℝ)}, Legal s.vok s.aok ⟨s.val, [], []⟩ ⟨s, []⟩ cs →
      ∃ w, (Session.mk s []).run cs = some w ∧
        ∀ a, s.aok a = true → w.st.adj a = replayAdj G a (s.adj a) (User.run ⟨s.val, [], []⟩ cs).log := by
  refine ⟨Expr.grad, fun e hwf m seed a => ⟨fun ha => grad_support m e seed a fun h => ha (readsA_cells e a h), ?_⟩, ?_⟩
  · exact fun π hπ hinj hc ha hreg => grad_partial hwf hπ hinj hc ha hreg seed
  · intro s cs hl
    obtain ⟨w, hw, h⟩ := (Inv.init s).run cs hl
    exact ⟨w, hw, h.adj⟩

/-- what C08 says for the sample history: the reset discards the first gradient, the next two (at `x = 5`) accumulate -/
example [LawfulLinAlg] : ∃ G, IsGradient G ∧ ∃ w, (Session.mk Sample.s []).run Sample.calls = some w ∧
    w.st.adj 0 = 0 + G Sample.e (Function.update Sample.s.val 0 5) (fun _ => 2) 0 + G Sample.e (Function.update Sample.s.val 0 5) (fun _ => 3) 0 ∧
    w.st.adj 1 = 0 + G Sample.e Sample.s.val (fun _ => 1) 1 + G Sample.e (Function.update Sample.s.val 0 5) (fun _ => 2) 1
      + G Sample.e (Function.update Sample.s.val 0 5) (fun _ => 3) 1 := by
  obtain ⟨G, hG, h⟩ := C08_adjoints_accumulate
  obtain ⟨w, hw, h⟩ := h Sample.calls_legal
  refine ⟨G, hG, w, hw, ?_, ?_⟩
  · rw [h 0 (by simp [Sample.s])]
    rfl
  · rw [h 1 (by simp [Sample.s])]
    rfl

/-- **C09.** `evaluate_adj` (after `evaluate`) of a bound side-effect-free expression changes no value at all, and no adjoint except those of
the variables mentioned in the expression and the expression's own cache block. -/
theorem C09_backward_frame {e : Expr ℝ} {s : St ℝ} {qv qa : ℕ} {jv ja : ℕ → ℝ} (hwf : e.WF)
    (hal : e.Alive s.vok s.aok) (hf : Fresh s e.bindSize qv qa) (seed : ℕ → ℝ) :
    ∃ s1 r s2, evaluate (bindExpr e qv qa jv ja s).1 (bindExpr e qv qa jv ja s).2 = some (s1, r) ∧
      evaluateAdj (bindExpr e qv qa jv ja s).1 seed s1 = some s2 ∧ s2.val = s1.val ∧
      (∀ a, ¬ (qv ≤ a ∧ a < qv + e.bindSize.val) → s2.val a = s.val a) ∧
      ∀ a, a ∉ e.adjCells → ¬ (qa ≤ a ∧ a < qa + e.bindSize.adj) → s2.adj a = s.adj a := by
  have hb := bindExpr_bnd (jv := jv) (ja := ja) hwf hal hf
  obtain ⟨s1, r, h1⟩ := hb.evaluate (m := (bindExpr e qv qa jv ja s).2.val) fun _ _ => rfl
  obtain ⟨s2, h2⟩ := (show Bnd _ _ _ _ s1.vok s1.aok by rw [h1.vok, h1.aok]; exact hb).evaluateAdj h1.cached seed
  refine ⟨s1, r, s2, h1.run, h2.run, h2.val, fun a ha => ?_, fun a ha ha' => ?_⟩
  · rw [h2.val, h1.frame a (by simpa [blockV, mem_rng, addr_some] using ha)]
    simp only [bindExpr, St.allocate, fillRange]
    exact if_neg ha
  · rw [h2.adj a (by simpa [blockA, mem_rng, addr_some] using ha'), h1.adj, grad_support _ e seed a fun h => ha (readsA_cells e a h), add_zero]
    simp only [bindExpr, St.allocate, fillRange]
    exact if_neg ha'

example : ∃ s1 r s2, evaluate (bindExpr Sample.e 10 10 0 0 Sample.s).1 (bindExpr Sample.e 10 10 0 0 Sample.s).2 = some (s1, r) ∧
    evaluateAdj (bindExpr Sample.e 10 10 0 0 Sample.s).1 1 s1 = some s2 ∧ s2.val 0 = 1 ∧ s2.adj 5 = 0 := by
  obtain ⟨s1, r, s2, h1, h2, -, h3, h4⟩ := C09_backward_frame (jv := 0) (ja := 0) Sample.e_wf Sample.e_alive Sample.e_fresh 1
  exact ⟨s1, r, s2, h1, h2, by rw [h3 0 (by omega)]; simp [Sample.s],
    by rw [h4 5 (by simp [Sample.e_adjCells]) (by omega)]; rfl⟩

/-- **C10 (partial).** The adjoint increment is linear in the seed, and seed 0 changes nothing, provided no negative power of 0 is
taken (`NoPole`).  What is missing for the full property is the case of a pole, for which it is false:
see `C10_false_at_pole`. -/
theorem C10_linear_in_seed_partial {e : Expr ℝ} {s : St ℝ} {qv qa : ℕ} {jv ja : ℕ → ℝ} (hwf : e.WF)
    (hal : e.Alive s.vok s.aok) (hf : Fresh s e.bindSize qv qa) (hp : e.NoPole s.val) (c d : ℝ) (f g : ℕ → ℝ) :
    ∃ s1 r s2 r2 s3 r3 s4 r4,
      autodiff (bindExpr e qv qa jv ja s).1 f (bindExpr e qv qa jv ja s).2 = some (s1, r) ∧
      autodiff (bindExpr e qv qa jv ja s).1 g (bindExpr e qv qa jv ja s).2 = some (s2, r2) ∧
      autodiff (bindExpr e qv qa jv ja s).1 (fun k => c * f k + d * g k) (bindExpr e qv qa jv ja s).2 = some (s3, r3) ∧
      autodiff (bindExpr e qv qa jv ja s).1 (fun _ => 0) (bindExpr e qv qa jv ja s).2 = some (s4, r4) ∧
      ∀ a, s.aok a = true →
        s3.adj a - s.adj a = c * (s1.adj a - s.adj a) + d * (s2.adj a - s.adj a) ∧ s4.adj a = s.adj a := by
  obtain ⟨s1, r1, h1⟩ := bindExpr_autodiff (jv := jv) (ja := ja) hwf hal hf f
  obtain ⟨s2, r2, h2⟩ := bindExpr_autodiff (jv := jv) (ja := ja) hwf hal hf g
  obtain ⟨s3, r3, h3⟩ := bindExpr_autodiff (jv := jv) (ja := ja) hwf hal hf (fun k => c * f k + d * g k)
  obtain ⟨s4, r4, h4⟩ := bindExpr_autodiff (jv := jv) (ja := ja) hwf hal hf (fun _ => 0)
  refine ⟨s1, r1, s2, r2, s3, r3, s4, r4, h1.run, h2.run, h3.run, h4.run, fun a ha => ?_⟩
  have hz := (grad_linear s.val e).zero hwf hp a
  refine ⟨?_, by rw [h4.adj a ha, hz, add_zero]⟩
  rw [h1.adj a ha, h2.adj a ha, h3.adj a ha]
  have e1 := grad_linear s.val e hwf hp c f (fun k => d * g k) a
  have e2 := grad_linear s.val e hwf hp d g (fun _ => 0) a
  have e3 : lin d g (fun _ => 0) = fun k => d * g k := by funext k; simp [lin]
  rw [e3, hz] at e2
  have e4 : lin c f (fun k => d * g k) = fun k => c * f k + d * g k := rfl
  rw [e4, e2] at e1
  rw [e1]
  ring

example : Sample.e.NoPole Sample.s.val := by
  simp [Sample.e, Expr.mkBinary, Expr.mkReduce, Expr.mkUnary, Expr.NoPole, Exprs.NoPoles]

/-- `pow<-1>(x)` -/
def Sample.inverse : Expr ℝ := .mkPow (-1) (.var Sample.x)

/-- **C10 is false at a pole**: `evaluate_adj` of `pow<-1>(x)` at `x = 0` adds `-infinity` to the adjoint of `x` for every seed, even for seed 0
(pow.hpp:149), so unless "infinity" is 0 the seed 0 changes the adjoint. -/
theorem C10_false_at_pole (hinf : (HasInf.inf : ℝ) ≠ 0) : ∃ s : St ℝ, Sample.inverse.WF ∧ Sample.inverse.Alive s.vok s.aok ∧
    Fresh s Sample.inverse.bindSize 10 10 ∧ s.aok 0 = true ∧
    ∃ s1 r, autodiff (bindExpr Sample.inverse 10 10 0 0 s).1 (fun _ => 0) (bindExpr Sample.inverse 10 10 0 0 s).2 = some (s1, r) ∧
      s1.adj 0 ≠ s.adj 0 := by
  let s : St ℝ := ⟨fun _ => 0, fun _ => 0, fun a => decide (a < 3), fun a => decide (a < 3)⟩
  have hwf : Sample.inverse.WF := ⟨⟨rfl, rfl⟩, rfl, by simp [Expr.isIf]⟩
  have hal : Sample.inverse.Alive s.vok s.aok := by
    constructor
    · intro w hw
      simp only [Sample.inverse, Expr.mkPow, Expr.vars, List.mem_singleton] at hw
      subst hw
      constructor <;> intro k hk <;> simp [Sample.x, View.size, Shape.size, Shape.scl, s] at hk ⊢ <;> omega
    · intro c hc; simp [Sample.inverse, Expr.mkPow, Expr.cviews] at hc
  have hf : Fresh s Sample.inverse.bindSize 10 10 := by constructor <;> intro k _ <;> simp [s] <;> omega
  obtain ⟨s1, r, h⟩ := bindExpr_autodiff (jv := 0) (ja := 0) hwf hal hf (fun _ => 0)
  refine ⟨s, hwf, hal, hf, by simp [s], s1, r, h.run, ?_⟩
  rw [h.adj 0 (by simp [s])]
  simp [Sample.inverse, Expr.mkPow, Expr.grad, powSeed, beq_iff, Expr.denote, Sample.x, addr, View.size, Shape.size, Shape.scl, s, hinf]

/-- **C16.** For every unary function of reverse mode and every point of its open domain: the value computed forward is the
mathematical function, and the backward pass multiplies the seed by its derivative. -/
theorem C16_unary_derivative (op : UOp) {x : ℝ} (hx : op.DomAt x) :
    op.fmap x = op.real x ∧ ∃ d, HasDerivAt op.real d x ∧ ∀ seed, op.bmap seed x (op.fmap x) = seed * d :=
  ⟨op.fmap_eq x, _, op.hasDerivAt hx, fun seed => by rw [UOp.bmap_linear, op.fmap_eq]⟩

example : UOp.tan.DomAt 0 ∧ UOp.asin.DomAt (1 / 2) ∧ UOp.log.DomAt 3 ∧ UOp.erf.DomAt (-7) := by
  refine ⟨?_, ⟨?_, ?_⟩, ?_, trivial⟩ <;> simp [UOp.DomAt] <;> norm_num

/-- **C17.** `pow<n>` of a variable of any shape, for every integer `n`: every coefficient of the result is the power (+infinity for a negative power of
0), and the adjoint of every element with `n ≥ 0` or non-zero base grows by seed times `n * x^(n-1)`. -/
theorem C17_pow_exact (n : ℤ) {v : View} {s : St ℝ} {qv qa : ℕ} {jv ja : ℕ → ℝ} (hv : v.shape.Ok)
    (hal : accessible s.vok v.val v.size ∧ accessible s.aok v.adj v.size)
    (hf : Fresh s (Expr.mkPow n (.var v) : Expr ℝ).bindSize qv qa) (seed : ℕ → ℝ) :
    ∃ s1 r f, autodiff (bindExpr (.mkPow n (.var v)) qv qa jv ja s).1 seed (bindExpr (.mkPow n (.var v)) qv qa jv ja s).2 = some (s1, r) ∧
      r.read s1 v.size = some f ∧ ∀ k < v.size,
        (f k = if n < 0 ∧ s.val (addr v.val + k) = 0 then HasInf.inf else s.val (addr v.val + k) ^ n) ∧
        (0 ≤ n ∨ s.val (addr v.val + k) ≠ 0 →
          s1.adj (addr v.adj + k) = s.adj (addr v.adj + k) + seed k * (n * s.val (addr v.val + k) ^ (n - 1))) := by
  have hwf : (Expr.mkPow n (.var v) : Expr ℝ).WF := ⟨hv, rfl, by simp [Expr.isIf]⟩
  have hal' : (Expr.mkPow n (.var v) : Expr ℝ).Alive s.vok s.aok := by
    constructor
    · intro w hw
      simp only [Expr.mkPow, Expr.vars, List.mem_singleton] at hw
      exact hw ▸ hal
    · intro c hc; simp [Expr.mkPow, Expr.cviews] at hc
  obtain ⟨s1, r, h⟩ := bindExpr_autodiff (jv := jv) (ja := ja) hwf hal' hf seed
  refine ⟨s1, r, _, h.run, h.value, fun k hk => ⟨?_, fun hx => ?_⟩⟩
  · rw [trunc_of_lt (show k < (Expr.mkPow n (.var v) : Expr ℝ).size from hk)]
    rfl
  · rw [h.adj _ (accessible_mem hal.2 hk)]
    congr 1
    have hm : addr v.adj ≤ addr v.adj + k ∧ addr v.adj + k < addr v.adj + v.size := by omega
    simp only [Expr.mkPow, Expr.grad, Expr.denote, hm, and_self, if_true, Nat.add_sub_cancel_left]
    split
    · rename_i h0; simp [h0]
    · split
      · rename_i h1; simp [h1]
      · rename_i h0 h1
        exact powSeed_eq n h0 h1 hx

/-- C17 applied: `pow<2>` of the sample vector `v = (2, 3)` -/
example : ∃ s1 r f, autodiff (bindExpr (.mkPow 2 (.var Sample.v)) 10 10 0 0 Sample.s).1 (fun _ => 1) (bindExpr (.mkPow 2 (.var Sample.v)) 10 10 0 0 Sample.s).2 = some (s1, r) ∧
    r.read s1 2 = some f ∧ f 1 = 9 ∧ s1.adj 2 = 6 := by
  obtain ⟨s1, r, f, h1, h2, h3⟩ := C17_pow_exact 2 (v := Sample.v) (s := Sample.s) (qv := 10) (qa := 10) (jv := 0) (ja := 0) rfl
    (by constructor <;> intro k hk <;> simp [Sample.v, View.size, Shape.size, Shape.vec, Sample.s] at hk ⊢ <;> omega)
    (by constructor <;> intro k _ <;> simp [Sample.s] <;> omega) (fun _ => 1)
  have h4 := h3 1 (by simp [Sample.v, View.size, Shape.size, Shape.vec])
  refine ⟨s1, r, f, h1, h2, ?_, ?_⟩
  · rw [h4.1]; norm_num [Sample.s, Sample.v, addr]
  · have := h4.2 (Or.inl (by norm_num))
    norm_num [Sample.s, Sample.v, addr] at this
    exact this

end FastAD
