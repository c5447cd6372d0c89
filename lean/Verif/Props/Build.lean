import Verif.Props.Samples
import Verif.Proof.Build
import Verif.Proof.Nodes

/-!
# Constant folding

Property C13.  A source expression is turned into a tree of nodes by the overloaded operators; operators applied to constants only are
evaluated on the spot.  The theorem compares this with the tree in which every operator makes its node.
-/

namespace FastAD

variable [HasInf ℝ] [LinAlg ℝ]

/-- **C13 (partial).** Let an expression be built in memory `s0` and evaluated in any later memory `s` in which the buffers of its constant views still
have the values they had in `s0` (variables may have changed).  The builders succeed; the produced expression `e'` has the shape of the unfolded
tree; if all operands are constants (`e.isConst`) then `e'` is a constant.  Binding and differentiating `e'` and the unfolded tree with the same seed yields
the same value, the same adjoints, and neither touches a value outside its cache.  Missing (`Src.Ok`): the empty product of scalar constants
(`C13_false_for_empty_product`), array `if_else` of which one branch gets folded (`C13_false_for_mixed_branches`), folded comparisons used as numbers
(their type is `bool`), and things that do not compile (transposed constants, ranges of constant matrices).  If a constant's buffer changes
after building the statement is false, `C13_false_after_change`. -/
theorem C13_folding_partial [LawfulLinAlg] {e : Src ℝ} {s0 : St ℝ} (hwf : e.plain.WF) (hok : e.Ok s0.val) (hal0 : e.plain.Alive s0.vok s0.aok) :
    ∃ e', e.build s0 = some e' ∧ e'.WF ∧ e'.shape = e.plain.shape ∧ e'.isConstant = e.isConst ∧
      ∀ s : St ℝ, e.plain.Alive s.vok s.aok → (∀ c ∈ e.plain.constCells, s.val c = s0.val c) →
      ∀ seed qv qa jv ja qv' qa' jv' ja', Fresh s e.plain.bindSize qv qa → Fresh s e'.bindSize qv' qa' →
      ∃ t r t' r' x,
        autodiff (bindExpr e.plain qv qa jv ja s).1 seed (bindExpr e.plain qv qa jv ja s).2 = some (t, r) ∧ r.read t e.plain.size = some x ∧
        autodiff (bindExpr e' qv' qa' jv' ja' s).1 seed (bindExpr e' qv' qa' jv' ja' s).2 = some (t', r') ∧ r'.read t' e.plain.size = some x ∧
        (∀ a, s.aok a = true → t'.adj a = t.adj a) ∧
        (∀ a, s.vok a = true → t.val a = s.val a ∧ t'.val a = s.val a) := by
  have hc0 : ConstsAt s0 s0.val e.plain := constsAt_of hal0.2 fun _ _ => rfl
  obtain ⟨e', hb, hsame, hcst, -⟩ := build_ok e hwf hok hc0
  refine ⟨e', hb, hsame.wf, hsame.shape, hcst, fun s hal hval seed qv qa jv ja qv' qa' jv' ja' hf hf' => ?_⟩
  have hc : ConstsAt s0 s.val e.plain := constsAt_of hal0.2 hval
  obtain ⟨e2, hb2, hs, -, -⟩ := build_ok e hwf (hok.congr e hwf hc0 hc) hc
  obtain rfl : e' = e2 := by simpa using hb.symm.trans hb2
  have hal' : e'.Alive s.vok s.aok := ⟨fun v hv => hal.1 v (hs.vars v hv), fun c hc => hal.2 c (hs.cviews c hc)⟩
  obtain ⟨t, r, h⟩ := bindExpr_autodiff (jv := jv) (ja := ja) hwf hal hf seed
  obtain ⟨t', r', h'⟩ := bindExpr_autodiff (jv := jv') (ja := ja') hs.wf hal' hf' seed
  refine ⟨t, r, t', r', _, h.run, h.value, h'.run, ?_, fun a ha => ?_, fun a ha => ⟨h.val a ha, h'.val a ha⟩⟩
  · rw [← hs.size, h'.value, hs.size]
    exact congrArg some (trunc_congr hs.den)
  · rw [h.adj a ha, h'.adj a ha, hs.grad]

namespace Sample

/-- `v * (sin(c) + 2) + det(D) * x`: only the constant parts are folded -/
def srcE : Src ℝ :=
  .binary .add (.binary .mul (.var v) (.binary .add (.unary .sin (.const (.vec 2) fun k => k)) (.const .scl fun _ => 2)))
    (.binary .mul (.det .lu (.const (.mat 2 2) fun k => k + 1)) (.var x))

end Sample

/-- C13 applies: `v * (sin(c) + 2) + det(D) * x` -/
example : Sample.srcE.plain.WF ∧ Sample.srcE.Ok Sample.s.val ∧ Sample.srcE.plain.Alive Sample.s.vok Sample.s.aok ∧
    Fresh Sample.s Sample.srcE.plain.bindSize 10 10 ∧ ∃ c d, Sample.srcE.build Sample.s = some (.mkBinary .add
      (.mkBinary .mul (.var Sample.v) (.const (.vec 2) c)) (.mkBinary .mul (.const .scl d) (.var Sample.x))) := by
  refine ⟨?_, ?_, ⟨?_, ?_⟩, ?_, ?_⟩
  · simp [Sample.srcE, Src.plain, Expr.WF, Expr.mkBinary, Expr.mkUnary, Expr.mkReduce, Exprs.WFs, Exprs.toList, Expr.shape, Expr.view, View.null, Expr.binShape, Shape.ofDims, Shape.maxKind,
      Sample.x, Sample.v, Shape.scl, Shape.vec, Shape.mat, Shape.Ok, binDimsOk, sameDims, Shape.isScl, Expr.isIf, RedOp.ShapeOk, BOp.isComparison]
  · simp [Sample.srcE, Src.Ok, Src.plain, Src.isTruth, Src.isConst, Decomp.Fits, Expr.binOk, Expr.shape, Expr.view, Expr.mkBinary, Expr.mkUnary, Expr.mkReduce, Expr.binShape,
      Sample.x, Sample.v, Shape.scl, Shape.vec, Shape.mat, Shape.ofDims, Shape.maxKind, View.null, Shape.isScl, sameDims, BOp.isComparison]
  · intro w hw
    simp only [Sample.srcE, Src.plain, Expr.mkBinary, Expr.mkReduce, Expr.mkUnary, Expr.vars, Exprs.varss, List.append_nil, List.nil_append, List.mem_append, List.mem_singleton, List.not_mem_nil, or_false, false_or] at hw
    rcases hw with rfl | rfl <;> constructor <;> intro k hk <;>
      simp [Sample.x, Sample.v, View.size, Shape.size, Shape.scl, Shape.vec, Sample.s] at hk ⊢ <;> omega
  · intro c hc
    simp [Sample.srcE, Src.plain, Expr.mkBinary, Expr.mkReduce, Expr.mkUnary, Expr.cviews, Exprs.cviewss] at hc
  · constructor <;> intro k _ <;> simp [Sample.s] <;> omega
  · exact ⟨_, _, rfl⟩

/-- **C13 is false for the product over an empty range of scalar constants**: the builder returns 0 (prod.hpp:270, `var_t(0)`), the node evaluates to 1. -/
theorem C13_false_for_empty_product {s : St ℝ} :
    (Src.prodRange .scl true .nil : Src ℝ).build s = some (.const .scl fun _ => 0) ∧
    ∀ qv qa jv ja, Fresh s (Src.prodRange .scl true .nil : Src ℝ).plain.bindSize qv qa → ∃ t r,
      evaluate (bindExpr (Src.prodRange .scl true .nil : Src ℝ).plain qv qa jv ja s).1 (bindExpr (Src.prodRange .scl true .nil : Src ℝ).plain qv qa jv ja s).2 = some (t, r) ∧
      ∃ g, r.read t 1 = some g ∧ g 0 = 1 := by
  refine ⟨rfl, fun qv qa jv ja hf => ?_⟩
  obtain ⟨s1, r, g, s2, h1, h2, h3, -⟩ := behaves (e := (Src.prodRange .scl true .nil : Src ℝ).plain) (s := s) (by simp [Expr.mkProdIter, Srcs.plains, Expr.iterShape, Src.plain, Expr.WF, Expr.mkBinary, Expr.mkUnary, Expr.mkReduce, Exprs.WFs, Exprs.toList, Expr.shape, Expr.view, View.null, Expr.binShape, Shape.ofDims, Shape.maxKind,
      Shape.scl, Shape.vec, Shape.mat, Shape.Ok, binDimsOk, sameDims, Shape.isScl, Expr.isIf, RedOp.ShapeOk, BOp.isComparison]) ⟨by simp [Src.plain, Expr.mkProdIter, Expr.vars, Exprs.varss, Srcs.plains], by simp [Src.plain, Expr.mkProdIter, Expr.cviews, Exprs.cviewss, Srcs.plains]⟩ (fun _ => 0) qv qa jv ja hf
  exact ⟨s1, r, h1, g, h2, h3 0 Nat.one_pos⟩

/-- **C13 is false for an array `if_else` of which one branch gets folded**: in `if_else(x < x, v, sin(c))` the folded branch is a stored matrix, the other one a
map; the conditional operator makes a temporary and returns a reference to it (if_else.hpp:66-72), so reading the result is undefined; with a node
`sin(c)` the expression would be fine. -/
theorem C13_false_for_mixed_branches :
    let e : Src ℝ := .ifElse (.binary .lt (.var Sample.x) (.var Sample.x)) (.var Sample.v) (.unary .sin (.const (.vec 2) fun _ => 1))
    (∃ t r g, evaluate (bindExpr e.plain 10 10 0 0 Sample.s).1 (bindExpr e.plain 10 10 0 0 Sample.s).2 = some (t, r) ∧ r.read t 2 = some g ∧ g 0 = Real.sin 1) ∧
    ∃ e', e.build Sample.s = some e' ∧ evaluate (bindExpr e' 10 10 0 0 Sample.s).1 (bindExpr e' 10 10 0 0 Sample.s).2 = none := by
  intro e
  refine ⟨?_, _, rfl, rfl⟩
  have hal : e.plain.Alive Sample.s.vok Sample.s.aok := by
    constructor
    · intro w hw
      simp only [e, Src.plain, Expr.mkIfElse, Expr.mkBinary, Expr.mkUnary, Expr.vars, List.append_nil, List.mem_append, List.mem_singleton] at hw
      rcases hw with (rfl | rfl) | rfl <;> constructor <;> intro k hk <;>
        simp [Sample.x, Sample.v, View.size, Shape.size, Shape.scl, Shape.vec, Sample.s] at hk ⊢ <;> omega
    · simp [e, Src.plain, Expr.mkIfElse, Expr.mkBinary, Expr.mkUnary, Expr.cviews]
  obtain ⟨s1, r, g, s2, h1, h2, h3, -⟩ := behaves (e := e.plain) (s := Sample.s) (by simp [e, Expr.mkIfElse, Expr.retKind, Sample.x, Sample.v, Src.plain, Expr.WF, Expr.mkBinary, Expr.mkUnary, Expr.mkReduce, Exprs.WFs, Exprs.toList, Expr.shape, Expr.view, View.null, Expr.binShape, Shape.ofDims, Shape.maxKind,
      Shape.scl, Shape.vec, Shape.mat, Shape.Ok, binDimsOk, sameDims, Shape.isScl, Expr.isIf, RedOp.ShapeOk, BOp.isComparison]) hal (fun _ => 0) 10 10 0 0 (by constructor <;> intro k _ <;> simp [Sample.s] <;> omega)
  exact ⟨s1, r, g, h1, h2, (h3 0 (by decide)).trans (by simp [e, Src.plain, Expr.mkIfElse, Expr.denote, Expr.mkBinary, Expr.mkUnary, BOp.real, UOp.real, ind, Expr.shape])⟩

/-- **C13 is false if the buffer of a constant view changes between building and evaluating**: `sin(constant_view(p))` keeps the sine of the old value. -/
theorem C13_false_after_change :
    ∃ (e : Src ℝ) (s0 s : St ℝ) (e' : Expr ℝ) (t t' : St ℝ) (r r' : Ref ℝ) (g g' : ℕ → ℝ), e.build s0 = some e' ∧ s.vok = s0.vok ∧ s.aok = s0.aok ∧
      evaluate (bindExpr e.plain 10 10 0 0 s).1 (bindExpr e.plain 10 10 0 0 s).2 = some (t, r) ∧ r.read t 1 = some g ∧ g 0 = Real.exp 1 ∧
      evaluate (bindExpr e' 10 10 0 0 s).1 (bindExpr e' 10 10 0 0 s).2 = some (t', r') ∧ r'.read t' 1 = some g' ∧ g' 0 = 1 := by
  let e : Src ℝ := .unary .exp (.cview .scl (some 0))
  let s0 : St ℝ := ⟨fun _ => 0, fun _ => 0, fun a => decide (a < 3), fun a => decide (a < 3)⟩
  let s : St ℝ := { s0 with val := fun _ => 1 }
  obtain ⟨c, hb, hc⟩ : ∃ c, e.build s0 = some (.const .scl c) ∧ c 0 = 1 := ⟨_, rfl, by simp [UOp.fmap, trunc, s0, Fn.exp]⟩
  obtain ⟨t, r, g, -, h1, h2, h3, -⟩ := behaves (e := e.plain) (s := s) (by simp [e, Src.plain, Expr.WF, Expr.mkBinary, Expr.mkUnary, Expr.mkReduce, Exprs.WFs, Exprs.toList, Expr.shape, Expr.view, View.null, Expr.binShape, Shape.ofDims, Shape.maxKind,
      Shape.scl, Shape.vec, Shape.mat, Shape.Ok, binDimsOk, sameDims, Shape.isScl, Expr.isIf, RedOp.ShapeOk, BOp.isComparison]) ⟨by simp [e, Src.plain, Expr.mkUnary, Expr.vars], by simp [e, Src.plain, Expr.mkUnary, Expr.cviews, accessible, s, s0, Shape.scl, Shape.size]⟩ (fun _ => 0) 10 10 0 0 (by constructor <;> intro k _ <;> simp [s, s0] <;> omega)
  obtain ⟨t', r', g', -, h1', h2', h3', -⟩ := behaves (e := .const .scl c) (s := s) (by simp [Expr.WF, Expr.mkBinary, Expr.mkUnary, Expr.mkReduce, Exprs.WFs, Exprs.toList, Expr.shape, Expr.view, View.null, Expr.binShape, Shape.ofDims, Shape.maxKind,
      Shape.scl, Shape.vec, Shape.mat, Shape.Ok, binDimsOk, sameDims, Shape.isScl, Expr.isIf, RedOp.ShapeOk, BOp.isComparison]) ⟨by simp [Expr.vars], by simp [Expr.cviews]⟩ (fun _ => 0) 10 10 0 0 (by constructor <;> intro k _ <;> simp [s, s0] <;> omega)
  exact ⟨e, s0, s, _, t, t', r, r', g, g', hb, rfl, rfl, h1, h2, h3 0 Nat.one_pos, h1', h2', (h3' 0 Nat.one_pos).trans hc⟩

end FastAD
