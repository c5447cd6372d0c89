import Verif.Props.Blocks
import Verif.Proof.WriteOut

/-!
# `for_each` inside expressions

Properties C30 and C53 for `for_each` at any depth.
-/

open scoped Topology

namespace FastAD

namespace Sample.Loop

/-- `sin((for_each(w = x * y, z = w * w), z * x))` -/
def e {α : Type} : Expr α :=
  .mkUnary .sin (.mkGlue (.mkForEach .scl (.cons (.mkEq Block.w (.mkBinary .mul (.var Block.x) (.var Block.y))) (.cons (.mkEq Block.z (.mkBinary .mul (.var Block.w) (.var Block.w))) .nil)))
    (.mkBinary .mul (.var Block.z) (.var Block.x)))

/-- `sin((w = x * y, z = w * w, z * x))` -/
def b {α : Type} : Expr α :=
  .mkUnary .sin (.mkGlue (.mkGlue (.mkEq Block.w (.mkBinary .mul (.var Block.x) (.var Block.y))) (.mkEq Block.z (.mkBinary .mul (.var Block.w) (.var Block.w)))) (.mkBinary .mul (.var Block.z) (.var Block.x)))

theorem e_written {α : Type} : (e : Expr α).writtenOut = b := rfl

theorem e_loops {α : Type} : (e : Expr α).LoopsOk := by
  simp [e, Expr.LoopsOk, Exprs.LoopsOks, Expr.mkUnary, Expr.mkGlue, Expr.mkForEach, Expr.mkEq, Expr.mkBinary, Expr.isLoop, Exprs.toList, Exprs.last, Expr.StoresValue,
    Expr.iterShape, View.null, Expr.shape, Expr.view, Expr.binShape, Shape.maxKind, Shape.ofDims, Block.x, Block.y, Block.w, Block.z, Shape.scl]

end Sample.Loop

section
variable {α : Type} [Zero α] [One α] [Add α] [Sub α] [Neg α] [Mul α] [Div α] [NatCast α] [IntCast α]
variable [Fn α] [HasInf α] [LinAlg α]

/-- **C30 (partial), `for_each` anywhere.** Let `e` be any expression over any type of numbers (with any arithmetic, for example one that rounds), in which `for_each` occurs at any depth: under functions and operators, in the condition or the
branches of `if_else`, in sums and reductions, in blocks, inside other `for_each`s.  `e.writtenOut` is the same expression with the elements of every non-empty `for_each` joined by `operator,` instead.  Both need the same number of cache cells and, bound to the same cells, do
exactly the same in every state of memory: `evaluate`, `evaluate_adj` and `autodiff` are defined for the one whenever they are for the other, and give the same memory and the same result.
`LoopsOk`: every element of a `for_each` stores its value, the last one has the shape of the first (otherwise the property is false, `C30_false_for_mixed_sizes`), and no `for_each` is itself the
right-hand side of an assignment. -/
theorem C30_anywhere_partial {e : Expr α} (h : e.LoopsOk) (qv qa : ℕ) (jv ja : ℕ → α) (s : St α) :
    e.writtenOut.bindSize = e.bindSize ∧ e.writtenOut.shape = e.shape ∧ (bindExpr e.writtenOut qv qa jv ja s).2 = (bindExpr e qv qa jv ja s).2 ∧
    ∀ (s1 : St α) (seed : ℕ → α),
      evaluate (bindExpr e.writtenOut qv qa jv ja s).1 s1 = evaluate (bindExpr e qv qa jv ja s).1 s1 ∧
      evaluateAdj (bindExpr e.writtenOut qv qa jv ja s).1 seed s1 = evaluateAdj (bindExpr e qv qa jv ja s).1 seed s1 ∧
      autodiff (bindExpr e.writtenOut qv qa jv ja s).1 seed s1 = autodiff (bindExpr e qv qa jv ja s).1 seed s1 := by
  have hb : (bindExpr e qv qa jv ja s).1.LoopsB := bind_loopsB e h _
  rw [writtenOut_bindExpr h]
  exact ⟨writtenOut_bindSize e h, writtenOut_shape e h, rfl, fun s1 seed =>
    ⟨unroll_evaluate hb s1, unroll_beval _ hb seed s1, unroll_autodiff hb seed s1⟩⟩

/-- C30 for the sample: `sin((for_each(w = x * y, z = w * w), z * x))` and `sin((w = x * y, z = w * w, z * x))` -/
example (s s1 : St α) (seed : ℕ → α) :
    autodiff (bindExpr Sample.Loop.b 10 10 0 0 s).1 seed s1 = autodiff (bindExpr Sample.Loop.e 10 10 0 0 s).1 seed s1 :=
  ((C30_anywhere_partial Sample.Loop.e_loops 10 10 0 0 s).2.2.2 s1 seed).2.2

end

variable [HasInf ℝ] [LinAlg ℝ]

/-- **C53, with `for_each`.** The theorem about blocks for expressions in which, at any depth, (non-empty) `for_each`s stand for parts of the blocks: `e.writtenOut`, the expression with the elements of every
`for_each` joined by `operator,`, is an expression with blocks.  After binding `e` itself, in any later state of memory in which the adjoints of the placeholders are zero, `autodiff` is defined, returns the value of the function that `e` written out denotes,
and adds its derivative to the adjoint of every variable that is not a placeholder. -/
theorem C53_with_for_each [LawfulLinAlg] {e : Expr ℝ} {s s1 : St ℝ} {qv qa : ℕ} {jv ja : ℕ → ℝ} (hl : e.LoopsOk) (hwf : e.writtenOut.WithBlocks)
    (hal : e.Alive s.vok s.aok) (hf : Fresh s e.bindSize qv qa) (hs : Later (bindExpr e qv qa jv ja s).2 s1)
    (hz : ∀ v ∈ e.writtenOut.places, ∀ k < v.size, s1.adj (addr v.adj + k) = 0) (seed : ℕ → ℝ) :
    ∃ s2 r, autodiff (bindExpr e qv qa jv ja s).1 seed s1 = some (s2, r) ∧
      r.read s2 e.size = some (trunc e.size (e.writtenOut.denote s1.val)) ∧
      ∀ π, e.Paired π → Set.InjOn π e.adjCells → (∀ v ∈ e.writtenOut.places, ∀ k < v.size, addr v.val + k ∉ e.constCells) →
        (∀ u, (∀ c ∈ e.constCells, u c = 0) → (∀ v ∈ e.writtenOut.places, ∀ k < v.size, u (addr v.val + k) = 0) → e.writtenOut.Reg (shift s1.val u) 0 →
          HasDerivAt (fun t => ∑ k ∈ Finset.range e.size, seed k * e.writtenOut.denote (shift s1.val u t) k)
            (∑ a ∈ e.adjCells, (s2.adj a - s1.adj a) * u (π a)) 0) ∧
        (∀ a ∈ e.adjCells, π a ∉ e.constCells → (∀ v ∈ e.writtenOut.places, ∀ k < v.size, a ≠ addr v.adj + k) →
          e.writtenOut.Reg (fun t => Function.update s1.val (π a) t) (s1.val (π a)) →
          HasDerivAt (fun t => ∑ k ∈ Finset.range e.size, seed k * e.writtenOut.denote (Function.update s1.val (π a) t) k)
            (s2.adj a - s1.adj a) (s1.val (π a))) := by
  obtain ⟨h1, h2, h3, h4⟩ := C30_anywhere_partial hl qv qa jv ja s
  obtain ⟨hv, hc⟩ := writtenOut_vars e
  have hsz : e.writtenOut.size = e.size := congrArg Shape.size h2
  have hcells : e.writtenOut.adjCells = e.adjCells := by simp only [Expr.adjCells, hv]
  have hconst : e.writtenOut.constCells = e.constCells := by simp only [Expr.constCells, hc]
  obtain ⟨s2, r, h5, h6, h7⟩ := C53_block_gradient (jv := jv) (ja := ja) hwf (alive_congr hv hc hal) (h1 ▸ hf) (by rw [h3]; exact hs) hz seed
  rw [(h4 s1 seed).2.2] at h5
  rw [hsz] at h6 h7
  rw [hcells, hconst] at h7
  exact ⟨s2, r, h5, h6, fun π hπ => h7 π fun v hm => hπ v (hv ▸ hm)⟩

namespace Sample.Loop

omit [HasInf ℝ] [LinAlg ℝ] in
theorem b_nwf : (b : Expr ℝ).NWF := by
  simp [b, Expr.NWF, Expr.NStm, Expr.mkBinary, Expr.mkUnary, Expr.mkGlue, Expr.mkEq, Expr.shape, Expr.view, View.null, Expr.binShape, Shape.ofDims,
    Shape.maxKind, Block.x, Block.y, Block.w, Block.z, Shape.scl, Shape.Ok, binDimsOk, sameDims, Shape.isScl, Expr.isIf, BOp.isComparison, Expr.Assignable, Expr.NotConst]

omit [HasInf ℝ] [LinAlg ℝ] in
theorem e_vars : ∀ u ∈ (e : Expr ℝ).vars, u = Block.x ∨ u = Block.y ∨ u = Block.w ∨ u = Block.z := by
  intro u hu
  simp [e, Expr.mkBinary, Expr.mkUnary, Expr.mkGlue, Expr.mkEq, Expr.mkForEach, Expr.vars, Exprs.varss] at hu
  tauto

omit [HasInf ℝ] [LinAlg ℝ] in
theorem b_places : (b : Expr ℝ).places = [Block.w, Block.z] := rfl

omit [HasInf ℝ] [LinAlg ℝ] in
theorem b_blocks : (b : Expr ℝ).WithBlocks := by
  refine ⟨b_nwf, ?_, fun v hv => ?_⟩
  · rw [b_places]
    simp [Distinct, Set.disjoint_left, rng, Block.w, Block.z, addr, View.size, Shape.size, Shape.scl]
    omega
  · rw [b_places] at hv
    simp only [List.mem_cons, List.not_mem_nil, or_false] at hv
    rcases hv with rfl | rfl <;> constructor <;> rw [Set.disjoint_left] <;> intro a ha h <;>
      simp [rng, Block.w, Block.z, addr, View.size, Shape.size, Shape.scl] at ha <;>
      simp [b, Expr.mkBinary, Expr.mkUnary, Expr.mkGlue, Expr.mkEq, Expr.reads, Expr.readsA, Expr.defs, Expr.defsA,
        rng, Block.x, Block.y, Block.w, Block.z, addr, View.size, Shape.size, Shape.scl] at h <;> omega

omit [HasInf ℝ] [LinAlg ℝ] in
theorem e_alive : (e : Expr ℝ).Alive Block.s.vok Block.s.aok := by
  constructor
  · intro u hu
    rcases e_vars u hu with rfl | rfl | rfl | rfl <;> constructor <;> intro k hk <;>
      simp [Block.x, Block.y, Block.w, Block.z, View.size, Shape.size, Shape.scl, Block.s] at hk ⊢ <;> omega
  · intro c hc
    simp [e, Expr.mkBinary, Expr.mkUnary, Expr.mkGlue, Expr.mkEq, Expr.mkForEach, Expr.cviews, Exprs.cviewss] at hc

theorem b_denote (m : ℕ → ℝ) : b.denote m 0 = Real.sin ((m 0 * m 1) * (m 0 * m 1) * m 0) := by
  simp [b, Expr.mkBinary, Expr.mkUnary, Expr.mkGlue, Expr.mkEq, Expr.denote, Expr.exec, assign, Block.x, Block.y, Block.w, Block.z, addr, View.size, Shape.size,
      Shape.scl, BOp.real, UOp.real, Expr.shape, Expr.view, Shape.isScl]

theorem b_reg (γ : ℝ → ℕ → ℝ) (t : ℝ) : b.Reg γ t := by
  simp [b, Expr.mkBinary, Expr.mkUnary, Expr.mkGlue, Expr.mkEq, Expr.Reg, Expr.RegS, BOp.isComparison, UOp.DomAt]

end Sample.Loop

/-- the sample, from x = 1, y = 2: the adjoint of `x` becomes `12 cos 4`, the derivative of `sin(x³ y²)` -/
example [LawfulLinAlg] : ∃ s2 r, autodiff (bindExpr Sample.Loop.e 10 10 0 0 Sample.Block.s).1 1 (bindExpr Sample.Loop.e 10 10 0 0 Sample.Block.s).2 = some (s2, r) ∧
    s2.adj 0 = Real.cos 4 * 12 := by
  have hv : ∀ a < 10, (bindExpr (Sample.Loop.e : Expr ℝ) 10 10 0 0 Sample.Block.s).2.val a = Sample.Block.s.val a := by
    intro a ha
    exact if_neg (by omega)
  have ha : ∀ a < 10, (bindExpr (Sample.Loop.e : Expr ℝ) 10 10 0 0 Sample.Block.s).2.adj a = 0 := by
    intro a ha
    exact if_neg (by omega)
  obtain ⟨s2, r, h, -, h2⟩ := C53_with_for_each (jv := 0) (ja := 0) (e := Sample.Loop.e) Sample.Loop.e_loops Sample.Loop.b_blocks Sample.Loop.e_alive
    (s := Sample.Block.s) (qv := 10) (qa := 10) (by constructor <;> intro k _ <;> simp [Sample.Block.s] <;> omega) ⟨fun _ h => h, fun _ h => h⟩
    (fun v hv k hk => by
      rw [Sample.Loop.e_written, Sample.Loop.b_places] at hv
      simp only [List.mem_cons, List.not_mem_nil, or_false] at hv
      rcases hv with rfl | rfl <;> simp only [Sample.Block.w, Sample.Block.z, View.size, Shape.size, Shape.scl, addr] at hk ⊢ <;> exact ha _ (by simp at hk ⊢; omega)) 1
  refine ⟨s2, r, h, ?_⟩
  have hd := (h2 id (fun u hu k _ => by rcases Sample.Loop.e_vars u hu with rfl | rfl | rfl | rfl <;> rfl) (Set.injOn_id _) (by
    intro v _ k _ h
    simp [Expr.constCells, Sample.Loop.e, Expr.mkBinary, Expr.mkUnary, Expr.mkGlue, Expr.mkEq, Expr.mkForEach, Expr.cviews, Exprs.cviewss] at h)).2 0
    (by decide) (by decide) (by
      intro v hv k hk
      rw [Sample.Loop.e_written, Sample.Loop.b_places] at hv
      simp only [List.mem_cons, List.not_mem_nil, or_false] at hv
      rcases hv with rfl | rfl
      · exact show (0 : ℕ) ≠ 2 + k by omega
      · exact show (0 : ℕ) ≠ 3 + k by omega)
    (Sample.Loop.b_reg _ _)
  have h0 : (bindExpr (Sample.Loop.e : Expr ℝ) 10 10 0 0 Sample.Block.s).2.val 0 = 1 := by rw [hv 0 (by omega)]; simp [Sample.Block.s]
  have h1 : (bindExpr (Sample.Loop.e : Expr ℝ) 10 10 0 0 Sample.Block.s).2.val 1 = 2 := by rw [hv 1 (by omega)]; norm_num [Sample.Block.s]
  rw [ha 0 (by omega), sub_zero] at hd
  simp only [show (Sample.Loop.e : Expr ℝ).size = 1 from rfl, Finset.sum_range_one, Pi.one_apply, one_mul, Sample.Loop.e_written, Sample.Loop.b_denote, id] at hd
  rw [h0] at hd
  simp only [Function.update_self, Function.update_of_ne (show (1 : ℕ) ≠ 0 by omega), h1] at hd
  have hi := hasDerivAt_id' (1 : ℝ)
  have he : HasDerivAt (fun t : ℝ => Real.sin ((t * 2) * (t * 2) * t)) (Real.cos 4 * 12) 1 := by
    refine ((((hi.mul_const 2).fun_mul (hi.mul_const 2)).fun_mul hi).sin).congr_deriv ?_
    norm_num
  exact hd.unique he

end FastAD
