import Verif.Props.Samples
import Verif.Proof.ForEach
import Verif.Proof.Regions

/-!
# Programs: placeholder assignments, compound assignments, `operator,` and `for_each`

Properties C02, C03, C05, C07, C30, C32, C33, C34, C35.  In all of them `s` is the memory when the program is bound and `s1` is any later
state of memory: the user may have assigned variables and adjoints, bound and differentiated other expressions, or this one.
-/

open scoped Topology

namespace FastAD

variable [HasInf ℝ] [LinAlg ℝ]

/-! ### A sample program -/

namespace Sample

/-- scalar placeholder: value cell 3, adjoint cell 3 -/
def w : View := ⟨.scl, some 3, some 3⟩

/-- `w = x * sin(x), v *= w, sum(v)`, that is `x sin(x) (v₀ + v₁)` -/
def p : Expr ℝ :=
  .mkGlue (.mkGlue (.mkEq w (.mkBinary .mul (.var x) (.mkUnary .sin (.var x)))) (.mkOpEq .mul v (.var w))) (.mkReduce .sum (.cons (.var v) .nil))

/-- memory holding x = 1, v = (2, 3), w = 4; everything from cell 4 on is free -/
noncomputable def t : St ℝ := ⟨fun a => (a : ℝ) + 1, fun _ => 0, fun a => decide (a < 4), fun a => decide (a < 4)⟩

omit [HasInf ℝ] [LinAlg ℝ] in
theorem p_flat : p.flat = [.mkEq w (.mkBinary .mul (.var x) (.mkUnary .sin (.var x))), .mkOpEq .mul v (.var w), .mkReduce .sum (.cons (.var v) .nil)] := rfl

omit [HasInf ℝ] [LinAlg ℝ] in
theorem p_program : p.Program := by
  have h1 : (Expr.mkEq w (.mkBinary .mul (.var x) (.mkUnary .sin (.var x))) : Expr ℝ).WFStmt := by
    refine ⟨⟨?_, ⟨?_, ?_, ?_⟩, ?_, ?_, ?_⟩, ?_, ?_, ?_, ?_, ?_⟩ <;>
      simp [Expr.WF, Expr.mkBinary, Expr.mkUnary, Expr.shape, Expr.view, View.null, Expr.binShape, Shape.ofDims, Shape.maxKind, x, w, Shape.scl, Shape.Ok,
        binDimsOk, sameDims, Shape.isScl, Expr.isIf, Expr.Assignable, BOp.isComparison, View.size, Shape.size]
    decide
  have h2 : (Expr.mkOpEq .mul v (.var w) : Expr ℝ).WFStmt := by
    refine ⟨?_, ?_, ?_, ?_, ?_, ?_, Or.inr ?_⟩ <;>
      simp [Expr.WF, Expr.shape, Expr.view, View.null, v, w, Shape.scl, Shape.vec, Shape.Ok, Shape.isScl, Expr.isIf, View.size, Shape.size, addr]
    omega
  have h3 : (Expr.mkReduce .sum (.cons (.var v) .nil) : Expr ℝ).WFStmt := by
    refine ⟨⟨⟨?_, trivial⟩, ?_, .inl ⟨_, rfl, ?_, ?_⟩⟩, ?_, ?_⟩ <;>
      simp [Expr.WF, Expr.mkReduce, Expr.isIf, RedOp.ShapeOk, v, View.null, Shape.vec, Shape.Ok, Expr.NotConst]
  refine ⟨⟨⟨h1, h2, by simp [Expr.flat, Expr.mkOpEq], rfl⟩, h3, by simp [Expr.flat, Expr.mkReduce], rfl⟩, ?_, by simp [p, Expr.flat, Expr.mkGlue, Expr.mkReduce]⟩
  rw [p_flat]
  simp [UsedAfter, Expr.mkOpEq, Expr.mkReduce, Expr.placeholder]

omit [HasInf ℝ] [LinAlg ℝ] in
theorem p_alive : p.Alive t.vok t.aok := by
  constructor
  · intro u hu
    simp only [p, Expr.mkGlue, Expr.mkEq, Expr.mkBinary, Expr.mkOpEq, Expr.mkReduce, Expr.mkUnary, Expr.vars, Exprs.varss, List.append_nil, List.mem_append,
      List.mem_cons, List.not_mem_nil, or_false] at hu
    rcases hu with ((rfl | rfl | rfl) | rfl | rfl) | rfl <;> constructor <;> intro k hk <;>
      simp [x, v, w, View.size, Shape.size, Shape.scl, Shape.vec, t] at hk ⊢ <;> omega
  · intro c hc
    simp [p, Expr.mkGlue, Expr.mkEq, Expr.mkBinary, Expr.mkOpEq, Expr.mkReduce, Expr.mkUnary, Expr.cviews, Exprs.cviewss] at hc

omit [HasInf ℝ] [LinAlg ℝ] in
theorem p_fresh : Fresh t p.bindSize 10 10 := by
  constructor <;> intro k _ <;> simp [t] <;> omega

omit [HasInf ℝ] [LinAlg ℝ] in
theorem p_paired : p.Paired id := by
  intro u hu k hk
  simp only [p, Expr.mkGlue, Expr.mkEq, Expr.mkBinary, Expr.mkOpEq, Expr.mkReduce, Expr.mkUnary, Expr.vars, Exprs.varss, List.append_nil, List.mem_append,
    List.mem_cons, List.not_mem_nil, or_false] at hu
  rcases hu with ((rfl | rfl | rfl) | rfl | rfl) | rfl <;> rfl

theorem p_reg (ρ : ℝ → ℕ → ℝ) (x0 : ℝ) : RegSeq p.flat ρ x0 := by
  rw [p_flat]
  simp [RegSeq, Expr.RegStmt, Expr.mkEq, Expr.mkOpEq, Expr.mkReduce, Expr.mkBinary, Expr.mkUnary, Expr.Reg, Exprs.Regs, BOp.isComparison, Exprs.toList,
    RedOp.RegAt, RedOp.RegsAt, UOp.DomAt]

theorem p_result (m : ℕ → ℝ) : p.result m 0 = m 1 * (m 0 * Real.sin (m 0)) + m 2 * (m 0 * Real.sin (m 0)) := by
  simp [p, Expr.mkGlue, Expr.mkEq, Expr.mkOpEq, Expr.mkReduce, Expr.mkBinary, Expr.mkUnary, Expr.result, Expr.exec, Expr.denote, Exprs.denotes, assign, w,
    v, x, addr, View.size, Shape.size, Shape.scl, Shape.vec, AOp.real, RedOp.reals, RedOp.real, BOp.real, UOp.real, Expr.shape, Expr.view, Shape.isScl,
    Finset.sum_range_succ]

end Sample

/-- **C02.** Let `p` be a program: a tree of `operator,` and `for_each` over statements (pure expressions, placeholder assignments `w = e` and compound
assignments) in which every placeholder is assigned once, before it is used.  After binding, in any later state of memory in which the adjoints
of the assigned variables are zero, `autodiff` is defined, returns the value of the composed function (`p.result`, the imperative
meaning; see C33 about the arrays excluded by `Stable`) and adds to every adjoint the derivative of `∑ₖ seed k * p_k` as a function of the
values before the pass of the variables other than placeholders: as a directional derivative for every direction, and element by element. -/
theorem C02_program_gradient [LawfulLinAlg] {p : Expr ℝ} {s s1 : St ℝ} {qv qa : ℕ} {jv ja : ℕ → ℝ} (hp : p.Program)
    (hal : p.Alive s.vok s.aok) (hf : Fresh s p.bindSize qv qa) (hl : Later (bindExpr p qv qa jv ja s).2 s1) (seed : ℕ → ℝ) :
    ∃ s2 r, autodiff (bindExpr p qv qa jv ja s).1 seed s1 = some (s2, r) ∧
      (p.Stable → r.read s2 p.size = some (trunc p.size (p.result s1.val))) ∧
      ∀ π, p.Paired π → Set.InjOn π p.adjCells → (∀ c ∈ p.constCells, c ∉ p.targetCells) → (∀ a ∈ p.targetAdj, s1.adj a = 0) →
        (∀ u, (∀ c ∈ p.constCells, u c = 0) → (∀ c ∈ p.placeCells, u c = 0) → RegSeq p.flat (shift s1.val u) 0 →
          HasDerivAt (fun t => ∑ k ∈ Finset.range p.size, seed k * p.result (shift s1.val u t) k)
            (∑ a ∈ p.adjCells, (s2.adj a - s1.adj a) * u (π a)) 0) ∧
        (∀ a ∈ p.adjCells, π a ∉ p.constCells → π a ∉ p.placeCells →
          RegSeq p.flat (fun t => Function.update s1.val (π a) t) (s1.val (π a)) →
          HasDerivAt (fun t => ∑ k ∈ Finset.range p.size, seed k * p.result (Function.update s1.val (π a) t) k)
            (s2.adj a - s1.adj a) (s1.val (π a))) := by
  obtain ⟨s2, r, h⟩ := later_autodiff hp hal hf hl seed
  have key : ∀ a ∈ p.adjCells, s2.adj a = backL p.flat s1.val seed s1.adj a := fun a ha =>
    h.adj a (fresh_block hf.2 (adjCells_alive hal a ha))
  refine ⟨s2, r, h.run, h.value, fun π h1 h2 h3 hz => ⟨fun u hu hu' hreg => ?_, fun a ha hc hpl hreg => ?_⟩⟩
  · rw [Finset.sum_congr rfl fun a ha => by rw [key a ha]]
    exact prog_directional hp ⟨h1, h2, h3⟩ hu hu' hreg seed s1.adj hz
  · rw [key a ha]
    exact prog_partial hp ⟨h1, h2, h3⟩ ha hc hpl hreg seed s1.adj hz

/-- C02 applied to `w = x * sin(x), v *= w, sum(v)`: the adjoint of `x` is the derivative of `x sin(x) (v₀ + v₁)` with respect to `x`. -/
example [LawfulLinAlg] : ∃ s2 r, autodiff (bindExpr Sample.p 10 10 0 0 Sample.t).1 1 (bindExpr Sample.p 10 10 0 0 Sample.t).2 = some (s2, r) ∧
    HasDerivAt (fun y => ∑ k ∈ Finset.range 1, (1 : ℕ → ℝ) k * Sample.p.result (Function.update (bindExpr Sample.p 10 10 0 0 Sample.t).2.val 0 y) k)
      (s2.adj 0 - (bindExpr Sample.p 10 10 0 0 Sample.t).2.adj 0) ((bindExpr Sample.p 10 10 0 0 Sample.t).2.val 0) ∧
    ∀ m, Sample.p.result m 0 = m 1 * (m 0 * Real.sin (m 0)) + m 2 * (m 0 * Real.sin (m 0)) := by
  obtain ⟨s2, r, h, -, h2⟩ := C02_program_gradient (jv := 0) (ja := 0) Sample.p_program Sample.p_alive Sample.p_fresh ⟨fun _ h => h, fun _ h => h⟩ 1
  refine ⟨s2, r, h, ?_, fun m => ?_⟩
  · refine (h2 id Sample.p_paired (Set.injOn_id _) (by decide) (fun a ha => ?_)).2 0 (by decide) (by decide) (by decide) (Sample.p_reg _ _)
    have : Sample.p.targetAdj = {3, 1, 2} := by decide
    rw [this] at ha
    simp only [Finset.mem_insert, Finset.mem_singleton] at ha
    rcases ha with rfl | rfl | rfl <;> simp [bindExpr, St.allocate, fillRange, Sample.t]
  · exact Sample.p_result m

/-- **C03.** Compound assignments.  In any state of memory later than the binding, `evaluate` computes what the statements of the program mean
(`p.exec` is the imperative store transformation, `p.result` the value of the last statement).  `autodiff` then rolls the compound
assignments back: outside the program's own caches, every cell that does not belong to a placeholder holds again the value it had before the
forward pass; placeholders keep the value assigned to them.  The adjoints are the derivatives with respect to the values held before
the forward pass: that is `C02_program_gradient`, whose programs contain compound assignments (the right-hand side may mention the updated variable, which
may be updated several times). -/
theorem C03_compound_assignment {p : Expr ℝ} {s s1 : St ℝ} {qv qa : ℕ} {jv ja : ℕ → ℝ} (hp : p.Program) (hal : p.Alive s.vok s.aok)
    (hf : Fresh s p.bindSize qv qa) (hl : Later (bindExpr p qv qa jv ja s).2 s1) (seed : ℕ → ℝ) :
    (∃ s2 r, evaluate (bindExpr p qv qa jv ja s).1 s1 = some (s2, r) ∧ r.read s2 p.size = some (trunc p.size (p.result s1.val)) ∧
      s2.adj = s1.adj ∧ ∀ a, ¬ (qv ≤ a ∧ a < qv + p.bindSize.val) → s2.val a = p.exec s1.val a) ∧
    ∃ s2 r, autodiff (bindExpr p qv qa jv ja s).1 seed s1 = some (s2, r) ∧
      (∀ a, ¬ (qv ≤ a ∧ a < qv + p.bindSize.val) → a ∉ p.placeCells → s2.val a = s1.val a) ∧
      ∀ L1 v e w L2, p.flat = L1 ++ .eq v e w :: L2 → ∀ k < v.size, s2.val (addr v.val + k) = e.denote (execL L1 s1.val) k := by
  constructor
  · obtain ⟨s2, r, h⟩ := later_evaluate hp hal hf hl
    exact ⟨s2, r, h.run, h.value, h.adj, fun a ha => h.store a (by simpa [blockV, mem_rng, addr_some] using ha)⟩
  · obtain ⟨s2, r, h⟩ := later_autodiff hp hal hf hl seed
    refine ⟨s2, r, h.run, fun a ha ha' => ?_, fun L1 v e w L2 hL k hk => ?_⟩
    · rw [h.val a ha, prog_restore hp ha']
    · have hmem : v ∈ p.vars := ((flat_spec p hp.tree).1 (.eq v e w) (by rw [hL]; simp)).2.1 v (by simp [Expr.vars])
      rw [h.val _ (fresh_block hf.1 (valCells_alive hal _ (mem_valCells.2 ⟨v, hmem, add_mem_rng hk⟩))), prog_placeholder hp hL hk]

/-- C03 applied to the sample program: `v` is restored and `w` keeps `x * sin(x)` -/
example : ∃ s2 r, autodiff (bindExpr Sample.p 10 10 0 0 Sample.t).1 1 (bindExpr Sample.p 10 10 0 0 Sample.t).2 = some (s2, r) ∧
    s2.val 1 = 2 ∧ s2.val 2 = 3 ∧ s2.val 3 = Real.sin 1 := by
  obtain ⟨-, s2, r, h, h1, h2⟩ := C03_compound_assignment (jv := 0) (ja := 0) Sample.p_program Sample.p_alive Sample.p_fresh ⟨fun _ h => h, fun _ h => h⟩ 1
  have hv : ∀ a, a < 4 → (bindExpr Sample.p 10 10 0 0 Sample.t).2.val a = (a : ℝ) + 1 := by
    intro a ha
    simp only [bindExpr, St.allocate, fillRange, Sample.t]
    rw [if_neg (by omega)]
  refine ⟨s2, r, h, ?_, ?_, ?_⟩
  · rw [h1 1 (by omega) (by decide), hv 1 (by omega)]; norm_num
  · rw [h1 2 (by omega) (by decide), hv 2 (by omega)]; norm_num
  · have := h2 [] Sample.w _ _ _ Sample.p_flat 0 (by decide)
    rw [show addr Sample.w.val + 0 = 3 from rfl] at this
    rw [this]
    simp [execL, Expr.denote, Expr.mkBinary, Expr.mkUnary, BOp.real, UOp.real, Sample.x, addr, hv]

/-- **C05 for programs (partial).** Let the only accessible memory be the storage of the variables and constant views mentioned in a program.
After `bind`, which adds the two cache blocks of `bind_cache_size()` cells, `evaluate` and `autodiff` are defined, so no other memory is
accessed and no null pointer is dereferenced.  Missing: the expressions for which it is false, see `C05_false_for_nested_if_else` and
`C05_false_for_assigned_prod`. -/
theorem C05_program_memory_safe_partial {p : Expr ℝ} {s : St ℝ} {qv qa : ℕ} {jv ja : ℕ → ℝ} (hp : p.Program)
    (hv : ∀ a, s.vok a = true ↔ a ∈ p.valCells ∪ p.constCells) (ha : ∀ a, s.aok a = true ↔ a ∈ p.adjCells)
    (hnull : (∀ w ∈ p.vars, w.size ≠ 0 → w.val ≠ none ∧ w.adj ≠ none) ∧ ∀ c ∈ p.cviews, c.1.size ≠ 0 → c.2 ≠ none)
    (hf : Fresh s p.bindSize qv qa) (seed : ℕ → ℝ) :
    (∃ s1 r, evaluate (bindExpr p qv qa jv ja s).1 (bindExpr p qv qa jv ja s).2 = some (s1, r)) ∧
    ∃ s2 r, autodiff (bindExpr p qv qa jv ja s).1 seed (bindExpr p qv qa jv ja s).2 = some (s2, r) := by
  have hal := alive_of_exact hv ha hnull
  obtain ⟨s1, r, h1⟩ := later_evaluate (jv := jv) (ja := ja) hp hal hf ⟨fun _ h => h, fun _ h => h⟩
  obtain ⟨s2, r', h2⟩ := later_autodiff (jv := jv) (ja := ja) hp hal hf ⟨fun _ h => h, fun _ h => h⟩ seed
  exact ⟨⟨s1, r, h1.run⟩, s2, r', h2.run⟩

/-- C05 applies to the sample program with exactly the cells 0 to 3 accessible -/
example : (∃ s1 r, evaluate (bindExpr Sample.p 10 10 0 0 Sample.t).1 (bindExpr Sample.p 10 10 0 0 Sample.t).2 = some (s1, r)) ∧
    ∃ s2 r, autodiff (bindExpr Sample.p 10 10 0 0 Sample.t).1 1 (bindExpr Sample.p 10 10 0 0 Sample.t).2 = some (s2, r) := by
  refine C05_program_memory_safe_partial Sample.p_program (fun a => ?_) (fun a => ?_) ⟨fun w hw _ => ?_, fun c hc => ?_⟩ Sample.p_fresh 1
  · have : Sample.p.valCells ∪ Sample.p.constCells = {0, 1, 2, 3} := by decide
    rw [this]; simp [Sample.t]; omega
  · have : Sample.p.adjCells = {0, 1, 2, 3} := by decide
    rw [this]; simp [Sample.t]; omega
  · simp only [Sample.p, Expr.mkGlue, Expr.mkEq, Expr.mkBinary, Expr.mkOpEq, Expr.mkReduce, Expr.mkUnary, Expr.vars, Exprs.varss, List.append_nil,
      List.mem_append, List.mem_cons, List.not_mem_nil, or_false] at hw
    rcases hw with ((rfl | rfl | rfl) | rfl | rfl) | rfl <;> simp [Sample.x, Sample.v, Sample.w]
  · simp [Sample.p, Expr.mkGlue, Expr.mkEq, Expr.mkBinary, Expr.mkOpEq, Expr.mkReduce, Expr.mkUnary, Expr.cviews, Exprs.cviewss] at hc

/-- **C09 for programs.** `autodiff` of a program changes no value outside the program's caches and the variables it assigns, and no adjoint outside the
program's caches and the variables it mentions. -/
theorem C09_program_frame {p : Expr ℝ} {s s1 : St ℝ} {qv qa : ℕ} {jv ja : ℕ → ℝ} (hp : p.Program) (hal : p.Alive s.vok s.aok)
    (hf : Fresh s p.bindSize qv qa) (hl : Later (bindExpr p qv qa jv ja s).2 s1) (seed : ℕ → ℝ) :
    ∃ s2 r, autodiff (bindExpr p qv qa jv ja s).1 seed s1 = some (s2, r) ∧
      (∀ a, ¬ (qv ≤ a ∧ a < qv + p.bindSize.val) → a ∉ p.placeCells → s2.val a = s1.val a) ∧
      ∀ a, ¬ (qa ≤ a ∧ a < qa + p.bindSize.adj) → a ∉ p.adjCells → s2.adj a = s1.adj a := by
  obtain ⟨s2, r, h⟩ := later_autodiff hp hal hf hl seed
  refine ⟨s2, r, h.run, fun a ha ha' => ?_, fun a ha ha' => ?_⟩
  · rw [h.val a ha, prog_restore hp ha']
  · rw [h.adj a ha]
    refine backL_off (fun x hx => ((flat_spec p hp.tree).1 x hx).1) fun x hx hc => ha' ?_
    obtain ⟨v, hv, hc⟩ := mem_adjCells.1 hc
    exact mem_adjCells.2 ⟨v, ((flat_spec p hp.tree).1 x hx).2.1 v hv, hc⟩

/-- C09 for the sample program: the value of `x` (cell 0) and the adjoint of a cell it does not mention are unchanged -/
example : ∃ s2 r, autodiff (bindExpr Sample.p 10 10 0 0 Sample.t).1 1 (bindExpr Sample.p 10 10 0 0 Sample.t).2 = some (s2, r) ∧
    s2.val 0 = (bindExpr Sample.p 10 10 0 0 Sample.t).2.val 0 ∧ s2.adj 5 = (bindExpr Sample.p 10 10 0 0 Sample.t).2.adj 5 := by
  obtain ⟨s2, r, h, h1, h2⟩ := C09_program_frame (jv := 0) (ja := 0) Sample.p_program Sample.p_alive Sample.p_fresh ⟨fun _ h => h, fun _ h => h⟩ 1
  exact ⟨s2, r, h, h1 0 (by omega) (by decide), h2 5 (by omega) (by decide)⟩

/-- **C30 (partial).** `for_each` over a non-empty sequence of programs behaves like the same programs written out with `operator,`: both occupy the same
number of cache cells and, bound one after the other and executed from the same memory, they leave the same values and
adjoints in the user's memory and deliver the same value.  `Program` of a `for_each` includes that its last element has the shape of the first, from which
the node takes its dimensions; otherwise the property is false (`C30_false_for_mixed_sizes`). -/
theorem C30_for_each_is_glue_partial {e : Expr ℝ} {es : Exprs ℝ} {w : View} {s s1 : St ℝ} {qv qa qv' qa' : ℕ} {jv ja jv' ja' : ℕ → ℝ}
    (hp : (Expr.forEach (.cons e es) w).Program) (hne : ∀ x ∈ es.toList, x.flat ≠ []) (hal : (Expr.forEach (.cons e es) w).Alive s.vok s.aok)
    (hf : Fresh s (Expr.forEach (.cons e es) w).bindSize qv qa)
    (hf' : Fresh (bindExpr (.forEach (.cons e es) w) qv qa jv ja s).2 (es.glued e).bindSize qv' qa')
    (hl : Later (bindExpr (es.glued e) qv' qa' jv' ja' (bindExpr (.forEach (.cons e es) w) qv qa jv ja s).2).2 s1) (seed : ℕ → ℝ) :
    (es.glued e).bindSize = (Expr.forEach (.cons e es) w).bindSize ∧
    (∃ s2 r s2' r', evaluate (bindExpr (.forEach (.cons e es) w) qv qa jv ja s).1 s1 = some (s2, r) ∧
      evaluate (bindExpr (es.glued e) qv' qa' jv' ja' (bindExpr (.forEach (.cons e es) w) qv qa jv ja s).2).1 s1 = some (s2', r') ∧
      r.read s2 (Expr.forEach (.cons e es) w).size = r'.read s2' (es.glued e).size ∧ ∀ a, s.vok a = true → s2.val a = s2'.val a) ∧
    ∃ s2 r s2' r', autodiff (bindExpr (.forEach (.cons e es) w) qv qa jv ja s).1 seed s1 = some (s2, r) ∧
      autodiff (bindExpr (es.glued e) qv' qa' jv' ja' (bindExpr (.forEach (.cons e es) w) qv qa jv ja s).2).1 seed s1 = some (s2', r') ∧
      (∀ a, s.vok a = true → s2.val a = s2'.val a) ∧ (∀ a, s.aok a = true → s2.adj a = s2'.adj a) ∧
      ((Expr.forEach (.cons e es) w).Stable → r.read s2 (Expr.forEach (.cons e es) w).size = r'.read s2' (es.glued e).size) := by
  obtain ⟨hq, hfl, hsh, hvars, hcv⟩ := glued_program hp hne
  have hlp := later_trans (later_bind (es.glued e) qv' qa' jv' ja' _) hl
  have hb := later_bind (.forEach (.cons e es) w) qv qa jv ja s
  have halq := alive_congr hvars hcv (alive_mono hal hb.1 hb.2)
  have hsz : (es.glued e).size = (Expr.forEach (.cons e es) w).size := congrArg Shape.size hsh
  have hst : (Expr.forEach (.cons e es) w).Stable → (es.glued e).Stable := by
    intro h
    unfold Expr.Stable Expr.updatedCells at h ⊢
    rw [hfl, hsh]; exact h
  refine ⟨glued_size es e, ?_, ?_⟩
  · obtain ⟨s2, r, h⟩ := later_evaluate hp hal hf hlp
    obtain ⟨s2', r', h'⟩ := later_evaluate hq halq hf' hl
    refine ⟨s2, r, s2', r', h.run, h'.run, ?_, fun a ha => ?_⟩
    · rw [h.value, h'.value, hsz, result_flat hp hq hfl]
    · rw [h.store a (notin_blockV hf ha), h'.store a (notin_blockV hf' (hb.1 a ha)), exec_flat hfl]
  · obtain ⟨s2, r, h⟩ := later_autodiff hp hal hf hlp seed
    obtain ⟨s2', r', h'⟩ := later_autodiff hq halq hf' hl seed
    refine ⟨s2, r, s2', r', h.run, h'.run, fun a ha => ?_, fun a ha => ?_, fun hs => ?_⟩
    · rw [h.val a (fresh_block hf.1 ha), h'.val a (fresh_block hf'.1 (hb.1 a ha)), hfl]
    · rw [h.adj a (fresh_block hf.2 ha), h'.adj a (fresh_block hf'.2 (hb.2 a ha)), hfl]
    · rw [h.value hs, h'.value (hst hs), hsz, result_flat hp hq hfl]

/-- the sample program written with `for_each` (all statements being scalar): `w = x * sin(x)`, then `sin(w)` -/
example : (Expr.mkForEach .scl (.cons (.mkEq Sample.w (.mkUnary .sin (.var Sample.x))) (.cons (.mkUnary .sin (.var Sample.w)) .nil)) : Expr ℝ).Program ∧
    Exprs.glued (.mkEq Sample.w (.mkUnary .sin (.var Sample.x))) (.cons (.mkUnary .sin (.var Sample.w)) .nil) =
      (.mkGlue (.mkEq Sample.w (.mkUnary .sin (.var Sample.x))) (.mkUnary .sin (.var Sample.w)) : Expr ℝ) := by
  refine ⟨⟨⟨⟨⟨⟨?_, ?_, ?_⟩, ?_, ?_, ?_, ?_, ?_⟩, ⟨⟨?_, ?_, ?_⟩, ?_, ?_⟩, trivial⟩, ?_⟩, ?_, ?_⟩, rfl⟩ <;>
    simp [Expr.WF, Expr.mkUnary, Expr.shape, Expr.view, View.null, Sample.x, Sample.w, Shape.scl, Shape.Ok, Shape.isScl, Expr.isIf, Expr.Assignable, View.size,
      Shape.size, Expr.NotConst, Exprs.last, Expr.flat, Exprs.flats, Expr.iterShape, Shape.ofDims, Expr.mkForEach, UsedAfter, Expr.placeholder, Expr.mkEq]
  decide

/-- vector of one element: cell 0 -/
def Sample.u1 : View := ⟨.vec 1, some 0, some 0⟩

/-- **C30 is false for elements of different sizes**: `for_each` takes its dimensions from the first element, so `for_each(sin(v), sin(u))` with vectors
of 2 and of 1 elements assigns a vector of one element to a view of two (undefined), whereas `(sin(v), sin(u))` evaluates to `sin(u)`. -/
theorem C30_false_for_mixed_sizes (seed : ℕ → ℝ) :
    let e : Expr ℝ := .mkUnary .sin (.var Sample.v)
    let es : Exprs ℝ := .cons (.mkUnary .sin (.var Sample.u1)) .nil
    (∃ s1 r, autodiff (bindExpr (es.glued e) 10 10 0 0 Sample.s).1 seed (bindExpr (es.glued e) 10 10 0 0 Sample.s).2 = some (s1, r)) ∧
    autodiff (bindExpr (.mkForEach .vec (.cons e es)) 10 10 0 0 Sample.s).1 seed (bindExpr (.mkForEach .vec (.cons e es)) 10 10 0 0 Sample.s).2 = none :=
  ⟨⟨_, _, rfl⟩, rfl⟩

/-- **C35.** After one `autodiff` from zero adjoints of the assigned variables, the adjoint of a placeholder `v` (assigned by the statement `v = e`
between the statements `L1` and `L2`) is the derivative of `∑ᵢ seed i * (value of the rest of the program)ᵢ` with respect to the value assigned to
`v`, all other cells being as they are after the assignment.  If the assignment is the last statement, the adjoint is the seed. -/
theorem C35_placeholder_sensitivity [LawfulLinAlg] {p : Expr ℝ} {s s1 : St ℝ} {qv qa : ℕ} {jv ja : ℕ → ℝ} (hp : p.Program)
    (hal : p.Alive s.vok s.aok) (hf : Fresh s p.bindSize qv qa) (hl : Later (bindExpr p qv qa jv ja s).2 s1) (seed : ℕ → ℝ) {π : ℕ → ℕ}
    (hπ : p.Paired π) (hinj : Set.InjOn π p.adjCells) (hconst : ∀ c ∈ p.constCells, c ∉ p.targetCells) (hz : ∀ a ∈ p.targetAdj, s1.adj a = 0) :
    ∃ s2 r, autodiff (bindExpr p qv qa jv ja s).1 seed s1 = some (s2, r) ∧
      ∀ L1 v e w L2, p.flat = L1 ++ .eq v e w :: L2 → ∀ k < v.size,
        (L2 = [] → s2.adj (addr v.adj + k) = seed k) ∧
        (L2 ≠ [] →
          RegSeq L2 (fun t => Function.update (execL (L1 ++ [.eq v e w]) s1.val) (addr v.val + k) t) (e.denote (execL L1 s1.val) k) →
          HasDerivAt (fun t => ∑ i ∈ Finset.range p.size, seed i * resultL L2 (Function.update (execL (L1 ++ [.eq v e w]) s1.val) (addr v.val + k) t) i)
            (s2.adj (addr v.adj + k)) (e.denote (execL L1 s1.val) k)) := by
  obtain ⟨s2, r, h⟩ := later_autodiff hp hal hf hl seed
  refine ⟨s2, r, h.run, fun L1 v e w L2 hL k hk => ?_⟩
  have hmem : v ∈ p.vars := ((flat_spec p hp.tree).1 (.eq v e w) (by rw [hL]; simp)).2.1 v (by simp [Expr.vars])
  rw [h.adj _ (fresh_block hf.2 (adjCells_alive hal _ (mem_adjCells.2 ⟨v, hmem, add_mem_rng hk⟩)))]
  constructor
  · rintro rfl
    exact prog_last hp hL hk _ _ (hz _ (mem_targetAdj.2 ⟨.eq v e w, by rw [hL]; simp, v, rfl, add_mem_rng hk⟩))
  · exact fun hne hreg => prog_sensitivity hp ⟨hπ, hinj, hconst⟩ hL hne hk hreg seed s1.adj hz

/-- C35 for the sample program: the adjoint of `w` is the derivative of `v₀ w + v₁ w` with respect to `w` -/
example [LawfulLinAlg] : ∃ s2 r, autodiff (bindExpr Sample.p 10 10 0 0 Sample.t).1 1 (bindExpr Sample.p 10 10 0 0 Sample.t).2 = some (s2, r) ∧
    s2.adj 3 = 5 := by
  have hadj : ∀ a ∈ Sample.p.targetAdj, (bindExpr Sample.p 10 10 0 0 Sample.t).2.adj a = 0 := by
    intro a ha
    have : Sample.p.targetAdj = {3, 1, 2} := by decide
    rw [this] at ha
    simp only [Finset.mem_insert, Finset.mem_singleton] at ha
    rcases ha with rfl | rfl | rfl <;> simp [bindExpr, St.allocate, fillRange, Sample.t]
  obtain ⟨s2, r, h, h1⟩ := C35_placeholder_sensitivity (jv := 0) (ja := 0) Sample.p_program Sample.p_alive Sample.p_fresh ⟨fun _ h => h, fun _ h => h⟩ 1
    Sample.p_paired (Set.injOn_id _) (by decide) hadj
  refine ⟨s2, r, h, ?_⟩
  have h2 := (h1 [] Sample.w _ _ _ Sample.p_flat 0 (by decide)).2 (by simp) (by
    simp [RegSeq, Expr.RegStmt, Expr.mkOpEq, Expr.mkReduce, Expr.Reg, Exprs.Regs, Exprs.toList, RedOp.RegAt, RedOp.RegsAt])
  have hv : ∀ a, a < 4 → (bindExpr Sample.p 10 10 0 0 Sample.t).2.val a = (a : ℝ) + 1 := by
    intro a ha
    simp only [bindExpr, St.allocate, fillRange, Sample.t]
    rw [if_neg (by omega)]
  have h3 : HasDerivAt (fun t : ℝ => 2 * t + 3 * t) 5 ((Expr.mkBinary BOp.mul (Expr.var Sample.x) (Expr.mkUnary UOp.sin (Expr.var Sample.x))).denote
      (execL [] (bindExpr Sample.p 10 10 0 0 Sample.t).2.val) 0) := by
    convert! ((hasDerivAt_id' _).const_mul 2).add ((hasDerivAt_id' _).const_mul (3 : ℝ)) using 1
    norm_num
  refine h2.unique ?_
  convert! h3 using 1
  funext t
  generalize (bindExpr Sample.p 10 10 0 0 Sample.t).2.val = M at hv ⊢
  simp [Sample.p, Expr.size, Expr.shape, Expr.view, Expr.mkGlue, View.null, Shape.size, Shape.scl, Expr.mkReduce, resultL, Expr.result, Expr.exec, Expr.mkOpEq,
    Expr.denote, Exprs.denotes, RedOp.reals, RedOp.real, Sample.v, Sample.w, Shape.vec, Finset.sum_range_succ, assign, addr, View.size, AOp.real, execL,
    Expr.mkEq, hv, Shape.isScl]
  norm_num

/-- **C33 (partial).** `autodiff` of a program returns the value of the program: the object returned reads, after the backward pass, as the value of the
composed function.  Missing: array-valued programs whose last statement is stored in a variable that a compound assignment
updates, for which it is false (`C33_false_for_array_compound`), and array expressions bound to a temporary (`C33_false_for_temporary`). -/
theorem C33_autodiff_value_partial {p : Expr ℝ} {s s1 : St ℝ} {qv qa : ℕ} {jv ja : ℕ → ℝ} (hp : p.Program) (hst : p.Stable)
    (hal : p.Alive s.vok s.aok) (hf : Fresh s p.bindSize qv qa) (hl : Later (bindExpr p qv qa jv ja s).2 s1) (seed : ℕ → ℝ) :
    ∃ s2 r, autodiff (bindExpr p qv qa jv ja s).1 seed s1 = some (s2, r) ∧ r.read s2 p.size = some (trunc p.size (p.result s1.val)) := by
  obtain ⟨s2, r, h⟩ := later_autodiff hp hal hf hl seed
  exact ⟨s2, r, h.run, h.value hst⟩

/-- the sample program is a scalar; `w = ..., v` with an array `v` that is not updated is also stable -/
example : Sample.p.Stable ∧ (Expr.mkGlue (.mkEq Sample.w (.mkUnary .sin (.var Sample.x))) (.var Sample.v) : Expr ℝ).Stable :=
  ⟨Or.inl rfl, Or.inr (by simp [Expr.mkGlue, Expr.mkEq, Expr.flat, Expr.StoredOutside, Expr.updatedCells, Expr.updated])⟩

/-- scalar variables stored in cells 1 and 2 -/
def Sample.y : View := ⟨.scl, some 1, some 1⟩
def Sample.z : View := ⟨.scl, some 2, some 2⟩

/-- **C33 is false for array compound assignments**: `autodiff(v += x)` with v = (2, 3), x = 1 returns a view of `v`, which the backward pass restores
to (2, 3); the value of the program is (3, 4). -/
theorem C33_false_for_array_compound (seed : ℕ → ℝ) :
    let p : Expr ℝ := .mkOpEq .add Sample.v (.var Sample.x)
    ∃ s2 r f, autodiff (bindExpr p 10 10 0 0 Sample.s).1 seed (bindExpr p 10 10 0 0 Sample.s).2 = some (s2, r) ∧
      r.read s2 2 = some f ∧ f 0 = 2 ∧ f 1 = 3 ∧ p.result (bindExpr p 10 10 0 0 Sample.s).2.val 0 = 3 ∧
      p.result (bindExpr p 10 10 0 0 Sample.s).2.val 1 = 4 := by
  refine ⟨_, _, _, rfl, rfl, ?_, ?_, ?_, ?_⟩
  · show ((1 : ℕ) : ℝ) + 1 = 2
    norm_num
  · show ((2 : ℕ) : ℝ) + 1 = 3
    norm_num
  · show ((1 : ℕ) : ℝ) + 1 + (((0 : ℕ) : ℝ) + 1) = 3
    norm_num
  · show ((2 : ℕ) : ℝ) + 1 + (((0 : ℕ) : ℝ) + 1) = 4
    norm_num

/-- **C33 is false for temporaries**: `auto r = autodiff(bind(sin(v)), seed)` returns a view of the cache owned by the temporary `ExprBind`; when that is
destroyed at the end of the statement, reading `r` is undefined. -/
theorem C33_false_for_temporary (seed : ℕ → ℝ) :
    let p : Expr ℝ := .mkUnary .sin (.var Sample.v)
    ∃ s2 r, autodiff (bindExpr p 10 10 0 0 Sample.s).1 seed (bindExpr p 10 10 0 0 Sample.s).2 = some (s2, r) ∧
      r.read (s2.release p.bindSize 10 10) 2 = none :=
  ⟨_, _, rfl, rfl⟩

/-- `x * (x += y)` -/
def Sample.timesUpdate : Expr ℝ := .mkBinary .mul (.var Sample.x) (.mkOpEq .add Sample.x (.var Sample.y))

/-- **C32 is false for compound assignments inside an expression**: whatever the value `t` of `y`, `x * (x += y)` with x = 1 evaluates to `(1 + t)²` (the left
operand is read by reference after the update), but `autodiff` at y = 2 adds 3 to the adjoint of `y`, and the derivative is 6. -/
theorem C32_false_for_nested_compound :
    let e := Sample.timesUpdate
    let b := bindExpr e 10 10 0 0 Sample.s
    (∀ t : ℝ, ∃ s2 r f, evaluate b.1 { b.2 with val := Function.update b.2.val 1 t } = some (s2, r) ∧ r.read s2 1 = some f ∧ f 0 = (1 + t) ^ 2) ∧
    ∃ s2 r, autodiff b.1 (fun _ => 1) b.2 = some (s2, r) ∧ s2.adj 1 - b.2.adj 1 = 3 ∧ ¬ HasDerivAt (fun t : ℝ => (1 + t) ^ 2) 3 (b.2.val 1) := by
  refine ⟨fun t => ⟨_, _, _, rfl, rfl, ?_⟩, _, _, rfl, ?_, ?_⟩
  · show (((0 : ℕ) : ℝ) + 1 + t) * (((0 : ℕ) : ℝ) + 1 + t) = (1 + t) ^ 2
    push_cast; ring
  · show (0 : ℝ) + (0 + 1 * (((0 : ℕ) : ℝ) + 1 + (((1 : ℕ) : ℝ) + 1))) - 0 = 3
    norm_num
  · intro h
    have h2 := ((hasDerivAt_id' ((1 : ℕ) + 1 : ℝ)).const_add 1).fun_pow 2
    have := h.unique h2
    norm_num at this

/-- `((w = x * x) < z), w * z` with the placeholder `w` in cell 1 -/
def Sample.guarded : Expr ℝ :=
  .mkGlue (.mkBinary .lt (.mkEq Sample.y (.mkBinary .mul (.var Sample.x) (.var Sample.x))) (.var Sample.z))
    (.mkBinary .mul (.var Sample.y) (.var Sample.z))

/-- **C34 is false**: the backward pass of a comparison is empty, so an assignment nested in a comparison never propagates the adjoint of its placeholder.
The value of `((w = x * x) < z), w * z` with z = 3 is `3 x²` for every value of `x`, but the adjoint of `x` is unchanged by `autodiff`. -/
theorem C34_false_under_comparison :
    let e := Sample.guarded
    let b := bindExpr e 10 10 0 0 Sample.s
    (∀ t : ℝ, ∃ s2 r f, evaluate b.1 { b.2 with val := Function.update b.2.val 0 t } = some (s2, r) ∧ r.read s2 1 = some f ∧ f 0 = 3 * t ^ 2) ∧
    ∃ s2 r, autodiff b.1 (fun _ => 1) b.2 = some (s2, r) ∧ s2.adj 0 - b.2.adj 0 = 0 ∧ ¬ HasDerivAt (fun t : ℝ => 3 * t ^ 2) 0 (b.2.val 0) := by
  refine ⟨fun t => ⟨_, _, _, rfl, rfl, ?_⟩, _, _, rfl, ?_, ?_⟩
  · show (t * t) * (((2 : ℕ) : ℝ) + 1) = 3 * t ^ 2
    push_cast; ring
  · show (0 : ℝ) - 0 = 0
    norm_num
  · intro h
    have h2 := ((hasDerivAt_id' ((0 : ℕ) + 1 : ℝ)).fun_pow 2).const_mul 3
    have := h.unique h2
    norm_num at this

end FastAD
