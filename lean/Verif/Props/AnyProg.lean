import Verif.Proof.GenProg
import Verif.Props.AnyScalar

/-!
# Programs over arbitrary scalar types

Property C47: C42 for programs with placeholders and compound assignments.  The theorems of this file are about every type `α` with interpretations of the operations; no law whatsoever is
assumed.
-/

namespace FastAD

section
variable {α : Type} [Zero α] [One α] [Add α] [Sub α] [Neg α] [Mul α] [Div α] [NatCast α] [IntCast α]
variable [Fn α] [HasInf α] [LinAlg α]

/-- **C47.** Over any scalar type: bind a program twice, in different memories, to caches at different addresses holding different rubbish, and let both objects have any history.  If the variables other than
placeholders, the constants and the adjoints of the variables agree, then both calls of `autodiff` are defined (no undefined behaviour), return the same numbers and leave the same
adjoints and the same values in the placeholders, bit by bit.  Whatever else was allocated before the binding has its old value again, bit by bit, even a variable which the program updates with
compound assignments; no adjoint outside the variables of the program changes. -/
theorem C47_reproducible {p : Expr α} {s t S T : St α} {qv qa qv' qa' : ℕ} {jv ja jv' ja' : ℕ → α} (hp : p.Program)
    (hs : p.Alive s.vok s.aok) (ht : p.Alive t.vok t.aok) (hfs : Fresh s p.bindSize qv qa) (hft : Fresh t p.bindSize qv' qa')
    (hS : Later (bindExpr p qv qa jv ja s).2 S) (hT : Later (bindExpr p qv' qa' jv' ja' t).2 T)
    (hval : ∀ c ∈ (p.valCells ∪ p.constCells) \ p.placeCells, S.val c = T.val c) (hadj : ∀ a ∈ p.adjCells, S.adj a = T.adj a)
    (seed seed' : ℕ → α) (hseed : ∀ k < p.size, seed k = seed' k) :
    ∃ S' r T' r' f, autodiff (bindExpr p qv qa jv ja s).1 seed S = some (S', r) ∧
      autodiff (bindExpr p qv' qa' jv' ja' t).1 seed' T = some (T', r') ∧
      r.read S' p.size = some f ∧ r'.read T' p.size = some f ∧
      (∀ a ∈ p.adjCells, S'.adj a = T'.adj a) ∧ (∀ c ∈ p.placeCells, S'.val c = T'.val c) ∧
      (∀ a, s.vok a = true → a ∉ p.placeCells → S'.val a = S.val a) ∧ (∀ a, s.aok a = true → a ∉ p.adjCells → S'.adj a = S.adj a) ∧
      (∀ a, t.vok a = true → a ∉ p.placeCells → T'.val a = T.val a) ∧ (∀ a, t.aok a = true → a ∉ p.adjCells → T'.adj a = T.adj a) := by
  obtain ⟨S', r, h⟩ := (later_prog hp hs hfs hS).gautodiff (m := S.val) (known_block hs hfs) hp.needOk (fun _ _ => rfl) hp.shapeOk seed
  obtain ⟨T', r', h'⟩ := (later_prog hp ht hft hT).gautodiff (m := S.val) (known_block ht hft) hp.needOk (fun a ha => (hval a ha).symm) hp.shapeOk seed'
  have hsd : ∀ x ∈ p.flat.getLast?, ∀ k < x.size, seed k = seed' k := by
    intro x hx k hk
    refine hseed k ?_
    rw [Expr.size, shape_last p hp.tree x hx]
    exact hk
  have hoff : ∀ {a} (m sd A : ℕ → α), a ∉ p.adjCells → gbackL p.flat m sd A a = A a := fun m sd A ha =>
    gbackL_off fun x hx hm => ha ((hp.lite x hx).2 hm)
  have hrest : ∀ {u U U' : St α} {m : ℕ → α} {BV : Set ℕ}, (∀ a ∈ p.known, U.val a = m a) →
      (∀ a ∈ p.known ∪ places p.flat, U'.val a = gundoL p.flat m (exactExecL p.flat m) a) →
      (∀ a, a ∉ BV → a ∉ tgts p.flat → U'.val a = U.val a) → ∀ a, a ∉ BV → a ∉ p.placeCells → U'.val a = U.val a := by
    intro u U U' m BV h1 h2 h3 a ha hpl
    have hpl' : a ∉ places p.flat := fun h => hpl (mem_placeCells.2 h)
    by_cases hk : a ∈ p.known
    · rw [h2 a (Or.inl hk), gundoL_exec hpl' rfl, h1 a hk]
    · exact h3 a ha fun h => (tgts_known hp h).elim hk hpl'
  refine ⟨S', r, T', r', _, h.run, h'.run, h.value, h'.value, fun a ha => ?_, fun a ha => ?_, fun a ha hn => ?_, fun a ha hn => ?_,
    fun a ha hn => ?_, fun a ha hn => ?_⟩
  · rw [h.adj a (notin_blockA hfs (adjCells_alive hs a ha)), h'.adj a (notin_blockA hft (adjCells_alive ht a ha))]
    exact gbackL_congr hp.lite (fun a ha => hadj a ha) hsd a ha
  · have hm := Or.inr (a := a ∈ p.known) (mem_placeCells.1 ha)
    rw [h.val a hm, h'.val a hm]
  · exact hrest (u := s) (fun _ _ => rfl) h.val h.other a (notin_blockV hfs ha) hn
  · rw [h.adj a (notin_blockA hfs ha), hoff _ _ _ hn]
  · exact hrest (u := t) (fun a ha => (hval a ha).symm) h'.val h'.other a (notin_blockV hft ha) hn
  · rw [h'.adj a (notin_blockA hft ha), hoff _ _ _ hn]

/-- **C47, values.** Over any scalar type `evaluate` of a bound program is defined, whatever the history, returns the value of the last statement when the statements are executed one after the other with the
operations of the scalar type (`exactResultL`) and leaves what they assign (`exactExecL`) in memory; adjoints are not changed. -/
theorem C47_exact {p : Expr α} {s S : St α} {qv qa : ℕ} {jv ja : ℕ → α} (hp : p.Program) (hs : p.Alive s.vok s.aok)
    (hfs : Fresh s p.bindSize qv qa) (hS : Later (bindExpr p qv qa jv ja s).2 S) :
    ∃ S' r, evaluate (bindExpr p qv qa jv ja s).1 S = some (S', r) ∧ r.read S' p.size = some (trunc p.size (exactResultL p.flat S.val)) ∧
      S'.adj = S.adj ∧ ∀ a, s.vok a = true → S'.val a = exactExecL p.flat S.val a := by
  obtain ⟨S', r, h⟩ := (later_prog hp hs hfs hS).gevaluate (m := S.val) (known_block hs hfs) hp.needOk (fun _ _ => rfl) hp.shapeOk
  refine ⟨S', r, h.run, h.value, h.adj, fun a ha => ?_⟩
  by_cases hk : a ∈ p.known ∪ places p.flat
  · exact h.store a hk
  · have hn : a ∉ tgts p.flat := fun h => hk (tgts_known hp h)
    rw [h.other a (notin_blockV hfs ha) hn, exactExecL_off hn]

/-- **C47, values returned by `autodiff`.** Over any scalar type `autodiff` of a program whose value is a scalar returns the number that `evaluate` returns. -/
theorem C47_autodiff_value {p : Expr α} {s S : St α} {qv qa : ℕ} {jv ja : ℕ → α} (hp : p.Program) (hs : p.Alive s.vok s.aok)
    (hfs : Fresh s p.bindSize qv qa) (hS : Later (bindExpr p qv qa jv ja s).2 S) (hscl : p.shape.isScl = true) (seed : ℕ → α) :
    ∃ S' r, autodiff (bindExpr p qv qa jv ja s).1 seed S = some (S', r) ∧
      r.read S' p.size = some (trunc p.size (exactResultL p.flat S.val)) := by
  obtain ⟨S', r, h⟩ := (later_prog hp hs hfs hS).gautodiff (m := S.val) (known_block hs hfs) hp.needOk (fun _ _ => rfl) hp.shapeOk seed
  exact ⟨S', r, h.run, by rw [h.value, if_pos hscl]⟩

end

namespace Fix

/-- `z = x * y, y *= z, y + x` -/
def p : Expr Fix :=
  .mkGlue (.mkGlue (.mkEq z (.mkBinary .mul (.var x) (.var y))) (.mkOpEq .mul y (.var z))) (.mkBinary .add (.var y) (.var x))

theorem p_program : p.Program := by
  have h1 : (Expr.mkEq z (.mkBinary .mul (.var x) (.var y)) : Expr Fix).WFStmt := by
    refine ⟨⟨?_, ?_, ?_, ?_, ?_⟩, ?_, ?_, ?_, ?_, by decide⟩ <;>
      simp [Expr.WF, Expr.mkBinary, Expr.shape, Expr.view, View.null, Expr.binShape, Shape.ofDims, Shape.maxKind, x, y, z, Shape.vec, Shape.Ok,
        binDimsOk, sameDims, Shape.isScl, Expr.isIf, Expr.Assignable, BOp.isComparison]
  have h2 : (Expr.mkOpEq .mul y (.var z) : Expr Fix).WFStmt := by
    refine ⟨?_, ?_, ?_, ?_, ?_, ?_, Or.inr ?_⟩ <;>
      simp [Expr.WF, Expr.shape, Expr.view, View.null, y, z, Shape.vec, Shape.Ok, Shape.isScl, Expr.isIf, View.size, Shape.size, addr]
    omega
  have h3 : (Expr.mkBinary .add (.var y) (.var x) : Expr Fix).WFStmt := by
    refine ⟨⟨?_, ?_, ?_, ?_, ?_⟩, ?_, ?_⟩ <;>
      simp [Expr.WF, Expr.mkBinary, Expr.shape, Expr.view, View.null, Expr.binShape, Shape.ofDims, Shape.maxKind, x, y, Shape.vec, Shape.Ok,
        binDimsOk, sameDims, Shape.isScl, Expr.isIf, BOp.isComparison, Expr.NotConst]
  refine ⟨⟨⟨h1, h2, by simp [Expr.flat, Expr.mkOpEq], rfl⟩, h3, by simp [Expr.flat, Expr.mkBinary], rfl⟩, ?_, by simp [p, Expr.flat, Expr.mkGlue, Expr.mkBinary]⟩
  simp [p, Expr.flat, UsedAfter, Expr.mkGlue, Expr.mkEq, Expr.mkOpEq, Expr.mkBinary, Expr.placeholder]

theorem p_alive : p.Alive s.vok s.aok := by
  constructor
  · intro u hu
    simp only [p, Expr.mkGlue, Expr.mkEq, Expr.mkBinary, Expr.mkOpEq, Expr.vars, List.mem_append, List.mem_cons, List.not_mem_nil, or_false] at hu
    rcases hu with ((rfl | rfl | rfl) | rfl | rfl) | rfl | rfl <;> constructor <;> intro k hk <;>
      simp [x, y, z, View.size, Shape.size, Shape.vec, s] at hk ⊢ <;> omega
  · intro c hc
    simp [p, Expr.mkGlue, Expr.mkEq, Expr.mkBinary, Expr.mkOpEq, Expr.cviews] at hc

theorem p_fresh (q q' : ℕ) (hq : 6 ≤ q) (hq' : 6 ≤ q') : Fresh s p.bindSize q q' := by
  constructor <;> intro k _ <;> simp [s] <;> omega

/-- C47 applies to `z = x * y, y *= z, y + x` in fixed-point arithmetic: caches at 10 and at 30, the second ones with other rubbish, and another old value of the placeholder `z`.  Although `y₀ * z₀` is rounded to 0, so that no
arithmetic could recover it, `y₀` is 1/2 again. -/
example : ∃ S r T r' f, autodiff (bindExpr p 10 10 (fun _ => 0) (fun _ => 0) s).1 (fun _ => 1) (bindExpr p 10 10 (fun _ => 0) (fun _ => 0) s).2 = some (S, r) ∧
    autodiff (bindExpr p 30 40 (fun _ => ⟨7⟩) (fun _ => ⟨9⟩) s).1 (fun _ => 1)
      { (bindExpr p 30 40 (fun _ => ⟨7⟩) (fun _ => ⟨9⟩) s).2 with val := fun a => if a = 4 then ⟨55⟩ else (bindExpr p 30 40 (fun _ => ⟨7⟩) (fun _ => ⟨9⟩) s).2.val a } = some (T, r') ∧
    r.read S 2 = some f ∧ r'.read T 2 = some f ∧ S.adj 0 = T.adj 0 ∧ S.val 4 = T.val 4 ∧ S.val 2 = ⟨2⟩ := by
  obtain ⟨S, r, T, r', f, h1, h2, h3, h4, h5, h6, h7, -⟩ := C47_reproducible (jv := fun _ => 0) (ja := fun _ => 0) (jv' := fun _ => ⟨7⟩) (ja' := fun _ => ⟨9⟩)
    (T := { (bindExpr p 30 40 (fun _ => ⟨7⟩) (fun _ => ⟨9⟩) s).2 with val := fun a => if a = 4 then ⟨55⟩ else (bindExpr p 30 40 (fun _ => ⟨7⟩) (fun _ => ⟨9⟩) s).2.val a })
    p_program p_alive p_alive (p_fresh 10 10 (by omega) (by omega)) (p_fresh 30 40 (by omega) (by omega)) ⟨fun _ h => h, fun _ h => h⟩
    ⟨fun _ h => h, fun _ h => h⟩ (by decide) (by decide) (fun _ => 1) (fun _ => 1) (fun _ _ => rfl)
  refine ⟨S, r, T, r', f, h1, h2, h3, h4, h5 0 (by decide), h6 4 (by decide), ?_⟩
  rw [h7 2 (by decide) (by decide)]
  decide

/-- the numbers: `y₀` is rounded to 0 by the compound assignment -/
example : ∃ S r f, evaluate (bindExpr p 10 10 (fun _ => 0) (fun _ => 0) s).1 (bindExpr p 10 10 (fun _ => 0) (fun _ => 0) s).2 = some (S, r) ∧
    r.read S 2 = some f ∧ f 0 = ⟨2⟩ * (⟨1⟩ * ⟨2⟩) + ⟨1⟩ ∧ S.val 2 = ⟨0⟩ := by
  obtain ⟨S, r, h1, h2, -, h3⟩ := C47_exact (jv := fun _ => 0) (ja := fun _ => 0) p_program p_alive (p_fresh 10 10 (by omega) (by omega)) ⟨fun _ h => h, fun _ h => h⟩
  exact ⟨S, r, _, h1, h2, by decide, by rw [h3 2 (by decide)]; decide⟩

/-- `z = x * y, sum(z)`: a program with a scalar value -/
def p' : Expr Fix := .mkGlue (.mkEq z (.mkBinary .mul (.var x) (.var y))) (.mkReduce .sum (.cons (.var z) .nil))

theorem p'_program : p'.Program := by
  have h1 : (Expr.mkEq z (.mkBinary .mul (.var x) (.var y)) : Expr Fix).WFStmt := p_program.tree.1.1
  have h3 : (Expr.mkReduce .sum (.cons (.var z) .nil) : Expr Fix).WFStmt := by
    refine ⟨⟨⟨?_, trivial⟩, ?_, .inl ⟨_, rfl, ?_, ?_⟩⟩, ?_, ?_⟩ <;>
      simp [Expr.WF, Expr.mkReduce, Expr.isIf, RedOp.ShapeOk, z, View.null, Shape.vec, Shape.Ok, Expr.NotConst]
  refine ⟨⟨h1, h3, by simp [Expr.flat, Expr.mkReduce], rfl⟩, ?_, by simp [p', Expr.flat, Expr.mkGlue, Expr.mkReduce]⟩
  simp [p', Expr.flat, UsedAfter, Expr.mkGlue, Expr.mkEq, Expr.mkReduce, Expr.placeholder]

theorem p'_alive : p'.Alive s.vok s.aok := by
  constructor
  · intro u hu
    simp only [p', Expr.mkGlue, Expr.mkEq, Expr.mkBinary, Expr.mkReduce, Expr.vars, Exprs.varss, List.append_nil, List.mem_append, List.mem_cons, List.not_mem_nil, or_false] at hu
    rcases hu with (rfl | rfl | rfl) | rfl <;> constructor <;> intro k hk <;>
      simp [x, y, z, View.size, Shape.size, Shape.vec, s] at hk ⊢ <;> omega
  · intro c hc
    simp [p', Expr.mkGlue, Expr.mkEq, Expr.mkBinary, Expr.mkReduce, Expr.cviews, Exprs.cviewss] at hc

/-- `autodiff` returns the sum of the rounded products -/
example : ∃ S r f, autodiff (bindExpr p' 10 10 (fun _ => 0) (fun _ => 0) s).1 (fun _ => 1) (bindExpr p' 10 10 (fun _ => 0) (fun _ => 0) s).2 = some (S, r) ∧
    r.read S 1 = some f ∧ f 0 = ⟨0⟩ := by
  obtain ⟨S, r, h1, h2⟩ := C47_autodiff_value (jv := fun _ => 0) (ja := fun _ => 0) (qv := 10) (qa := 10) p'_program p'_alive
    (by constructor <;> intro k _ <;> simp [s] <;> omega) ⟨fun _ h => h, fun _ h => h⟩ rfl (fun _ => 1)
  exact ⟨S, r, _, h1, h2, by decide⟩

end Fix

end FastAD
