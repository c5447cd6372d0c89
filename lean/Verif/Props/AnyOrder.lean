import Verif.Proof.Defined
import Verif.Props.Program
import Verif.Props.AnyProg

/-!
# C50: statements in any order, variables assigned any number of times

C02 asks that every placeholder is assigned once, before it is used.  Here nothing is asked about the order: a variable may be assigned several times, may be used before it is assigned, and
may be both a placeholder and the target of compound assignments.
-/

namespace FastAD

section
variable {α : Type} [Zero α] [One α] [Add α] [Sub α] [Neg α] [Mul α] [Div α] [NatCast α] [IntCast α]
variable [Fn α] [HasInf α] [LinAlg α]
variable {p : Expr α} {s S : St α} {qv qa : ℕ} {jv ja : ℕ → α}

/-- **C50, values.** Over any scalar type, `evaluate` of a bound sequence of statements is defined and executes the statements one after the other: it returns the value of the last one and leaves
in memory what they assign.  Adjoints are not changed. -/
theorem C50_evaluate (ht : p.WFTree) (hne : p.flat ≠ []) (hs : p.Alive s.vok s.aok) (hf : Fresh s p.bindSize qv qa) (hS : Later (bindExpr p qv qa jv ja s).2 S) :
    ∃ S' r, evaluate (bindExpr p qv qa jv ja s).1 S = some (S', r) ∧ r.read S' p.size = some (trunc p.size (exactResultL p.flat S.val)) ∧
      S'.adj = S.adj ∧ ∀ a, s.vok a = true → S'.val a = exactExecL p.flat S.val a := by
  obtain ⟨S', r, h⟩ := (later_eval ht hne hs hf hS).gevaluate (m := S.val) (seen_block hs hf) (seen_needOk ht) (fun _ _ => rfl) (ht.shapeOk hne)
  refine ⟨S', r, h.run, h.value, h.adj, fun a ha => ?_⟩
  by_cases hk : a ∈ p.seen
  · exact h.store a (Or.inl hk)
  · have hn : a ∉ tgts p.flat := fun h => hk (tgts_seen ht h)
    rw [h.other a (notin_blockV hf ha) hn, exactExecL_off hn]

/-- **C50, the backward pass alone.** Over any scalar type, `evaluate_adj` of a bound sequence of statements is defined even if no `evaluate` came before, whatever the memory contains, and changes
only the cells of the binding, the values of variables the statements assign and the adjoints of the variables they mention. -/
theorem C50_evaluate_adj_safe (ht : p.WFTree) (hne : p.flat ≠ []) (hs : p.Alive s.vok s.aok) (hf : Fresh s p.bindSize qv qa) (hS : Later (bindExpr p qv qa jv ja s).2 S)
    (seed : ℕ → α) :
    ∃ S', evaluateAdj (bindExpr p qv qa jv ja s).1 seed S = some S' ∧ S'.vok = S.vok ∧ S'.aok = S.aok ∧
      (∀ a, s.vok a = true → a ∉ p.targetCells → S'.val a = S.val a) ∧ (∀ a, s.aok a = true → a ∉ p.adjCells → S'.adj a = S.adj a) := by
  obtain ⟨S', h, k⟩ := (later_eval ht hne hs hf hS).beval_def seed
  refine ⟨S', h, k.ok.1, k.ok.2, fun a ha hn => k.val a ?_, fun a ha hn => k.adj a ?_⟩
  · rintro (h | h)
    · exact notin_blockV hf ha h
    · exact hn (tgts_target h)
  · rintro (h | ⟨x, hx, h⟩)
    · exact notin_blockA hf ha h
    · exact hn (mentA_adj ht hx h)

/-- **C50, no undefined behaviour.** Over any scalar type, `autodiff` of a bound sequence of statements is defined and changes only the cells of the binding, the values of variables the statements
assign and the adjoints of the variables they mention; a scalar is returned as by `evaluate`. -/
theorem C50_autodiff_safe (ht : p.WFTree) (hne : p.flat ≠ []) (hs : p.Alive s.vok s.aok) (hf : Fresh s p.bindSize qv qa) (hS : Later (bindExpr p qv qa jv ja s).2 S)
    (seed : ℕ → α) :
    ∃ S' r, autodiff (bindExpr p qv qa jv ja s).1 seed S = some (S', r) ∧ S'.vok = S.vok ∧ S'.aok = S.aok ∧
      (p.shape.isScl = true → r.read S' p.size = some (trunc p.size (exactResultL p.flat S.val))) ∧
      (∀ a, s.vok a = true → a ∉ p.targetCells → S'.val a = S.val a) ∧ (∀ a, s.aok a = true → a ∉ p.adjCells → S'.adj a = S.adj a) := by
  obtain ⟨S1, r, h⟩ := (later_eval ht hne hs hf hS).gevaluate (m := S.val) (seen_block hs hf) (seen_needOk ht) (fun _ _ => rfl) (ht.shapeOk hne)
  have hS1 : Later (bindExpr p qv qa jv ja s).2 S1 := ⟨fun a ha => by rw [h.vok]; exact hS.1 a ha, fun a ha => by rw [h.aok]; exact hS.2 a ha⟩
  obtain ⟨S', h1, h2, h3, h4, h5⟩ := C50_evaluate_adj_safe ht hne hs hf hS1 seed
  refine ⟨S', r, ?_, h2.trans h.vok, h3.trans h.aok, fun hscl => ?_, fun a ha hn => ?_, fun a ha hn => ?_⟩
  · simp only [autodiff, h.run, h1, Option.bind_eq_bind, Option.bind_some]
  · rw [h.scalar hscl]
    simp only [Ref.read]
    congr 1
    funext k
    simp only [trunc]
    split <;> rfl
  · rw [h4 a ha hn, h.other a (notin_blockV hf ha) fun h => hn (tgts_target h)]
  · rw [h5 a ha hn, h.adj]

end

section
variable [HasInf ℝ] [LinAlg ℝ]

/-- **C50, values over the reals.** `evaluate` of a bound sequence of statements returns its imperative meaning `p.result` and leaves `p.exec` in memory. -/
theorem C50_evaluate_real {p : Expr ℝ} {s S : St ℝ} {qv qa : ℕ} {jv ja : ℕ → ℝ} (ht : p.WFTree) (hne : p.flat ≠ []) (hs : p.Alive s.vok s.aok)
    (hf : Fresh s p.bindSize qv qa) (hS : Later (bindExpr p qv qa jv ja s).2 S) :
    ∃ S' r, evaluate (bindExpr p qv qa jv ja s).1 S = some (S', r) ∧ r.read S' p.size = some (trunc p.size (p.result S.val)) ∧
      S'.adj = S.adj ∧ ∀ a, s.vok a = true → S'.val a = p.exec S.val a := by
  obtain ⟨S', r, h⟩ := (later_eval ht hne hs hf hS).evaluate (m := S.val) (fun _ _ => rfl) (ht.shapeOk hne)
  exact ⟨S', r, h.run, h.value, h.adj, fun a ha => h.store a (notin_blockV hf ha)⟩

end

/-! ### Samples -/

section
variable {α : Type}

/-- `y = x * x, y = x * z`: the placeholder `y` is assigned twice -/
def Sample.twice : Expr α :=
  .mkGlue (.mkEq Sample.y (.mkBinary .mul (.var Sample.x) (.var Sample.x))) (.mkEq Sample.y (.mkBinary .mul (.var Sample.x) (.var Sample.z)))

/-- `z = y * y, y = x * x, z + y`: the variable `y` is used before it is assigned -/
def Sample.late : Expr α :=
  .mkGlue (.mkGlue (.mkEq Sample.z (.mkBinary .mul (.var Sample.y) (.var Sample.y))) (.mkEq Sample.y (.mkBinary .mul (.var Sample.x) (.var Sample.x))))
    (.mkBinary .add (.var Sample.z) (.var Sample.y))

theorem Sample.eq_wf {u v w : View} (hu : u.shape = .scl) (hv : v.shape = .scl) (hw : w.shape = .scl) (h1 : addr w.val ≠ addr u.val) (h2 : addr w.val ≠ addr v.val)
    (h3 : addr w.adj ≠ addr u.adj) (h4 : addr w.adj ≠ addr v.adj) : (Expr.mkEq w (.mkBinary .mul (.var u) (.var v)) : Expr α).WFStmt := by
  refine ⟨⟨?_, ?_, ?_, ?_, ?_⟩, ?_, ?_, ?_, ?_, ?_⟩ <;>
    simp [Expr.WF, Expr.mkBinary, Expr.mkEq, Expr.shape, Expr.view, View.null, Expr.binShape, Shape.ofDims, Shape.maxKind, hu, hv, hw, Shape.scl, Shape.Ok,
      binDimsOk, sameDims, Shape.isScl, Expr.isIf, Expr.Assignable, BOp.isComparison, View.size, Shape.size, Expr.valCells, Expr.constCells, Expr.adjCells, Expr.vars, Expr.cviews, cells, h1, h2, h3, h4]

theorem Sample.twice_wf : (Sample.twice : Expr α).WFTree :=
  ⟨Sample.eq_wf rfl rfl rfl (by decide) (by decide) (by decide) (by decide), Sample.eq_wf rfl rfl rfl (by decide) (by decide) (by decide) (by decide),
    by simp [Expr.flat, Expr.mkEq], rfl⟩

theorem Sample.late_wf : (Sample.late : Expr α).WFTree := by
  refine ⟨⟨Sample.eq_wf rfl rfl rfl (by decide) (by decide) (by decide) (by decide), Sample.eq_wf rfl rfl rfl (by decide) (by decide) (by decide) (by decide),
    by simp [Expr.flat, Expr.mkEq], rfl⟩, ?_, by simp [Expr.flat, Expr.mkBinary], rfl⟩
  refine ⟨⟨?_, ?_, ?_, ?_, ?_⟩, ?_, ?_⟩ <;>
    simp [Expr.WF, Expr.mkBinary, Expr.shape, Expr.view, View.null, Expr.binShape, Shape.ofDims, Shape.maxKind, Sample.y, Sample.z, Shape.scl, Shape.Ok,
      binDimsOk, Shape.isScl, Expr.isIf, BOp.isComparison, Expr.NotConst]

end

theorem Sample.twice_alive {α : Type} : (Sample.twice : Expr α).Alive Sample.s.vok Sample.s.aok := by
  constructor
  · intro u hu
    simp only [Sample.twice, Expr.mkGlue, Expr.mkEq, Expr.mkBinary, Expr.vars, List.mem_append, List.mem_cons, List.not_mem_nil, or_false] at hu
    rcases hu with (rfl | rfl | rfl) | rfl | rfl | rfl <;> constructor <;> intro k hk <;>
      simp [Sample.x, Sample.y, Sample.z, View.size, Shape.size, Shape.scl, Sample.s] at hk ⊢ <;> omega
  · intro c hc
    simp [Sample.twice, Expr.mkGlue, Expr.mkEq, Expr.mkBinary, Expr.cviews] at hc

theorem Sample.late_alive {α : Type} : (Sample.late : Expr α).Alive Sample.s.vok Sample.s.aok := by
  constructor
  · intro u hu
    simp only [Sample.late, Expr.mkGlue, Expr.mkEq, Expr.mkBinary, Expr.vars, List.mem_append, List.mem_cons, List.not_mem_nil, or_false] at hu
    rcases hu with ((rfl | rfl | rfl) | rfl | rfl | rfl) | rfl | rfl <;> constructor <;> intro k hk <;>
      simp [Sample.x, Sample.y, Sample.z, View.size, Shape.size, Shape.scl, Sample.s] at hk ⊢ <;> omega
  · intro c hc
    simp [Sample.late, Expr.mkGlue, Expr.mkEq, Expr.mkBinary, Expr.cviews] at hc

section
variable [HasInf ℝ] [LinAlg ℝ]

/-- neither sample is a program in the sense of C02 -/
example : ¬ (Sample.twice : Expr ℝ).Program ∧ ¬ (Sample.late : Expr ℝ).Program := by
  constructor <;> intro h <;> have h := h.order <;>
    simp [Sample.twice, Sample.late, Expr.mkGlue, Expr.mkEq, Expr.mkBinary, Expr.flat, UsedAfter, Expr.placeholder, Sample.x, Sample.y, Sample.z, View.size, Shape.size, Shape.scl,
      Expr.valCells, Expr.vars, cells] at h

/-- `y = x * x, y = x * z` with x = 1, z = 3, in any later state: `evaluate` is defined and returns `x z` -/
example {S : St ℝ} (hS : Later (bindExpr Sample.twice 10 10 0 0 Sample.s).2 S) :
    ∃ S' r f, evaluate (bindExpr Sample.twice 10 10 0 0 Sample.s).1 S = some (S', r) ∧ r.read S' 1 = some f ∧ f 0 = S.val 0 * S.val 2 ∧ S'.val 1 = S.val 0 * S.val 2 := by
  obtain ⟨S', r, h1, h2, -, h3⟩ := C50_evaluate_real Sample.twice_wf (by simp [Sample.twice, Expr.mkGlue, Expr.mkEq, Expr.flat]) Sample.twice_alive
    (by constructor <;> intro k _ <;> simp [Sample.s] <;> omega) hS
  refine ⟨S', r, _, h1, h2, ?_, ?_⟩
  · have hsz : (Sample.twice : Expr ℝ).size = 1 := rfl
    rw [hsz]
    simp [trunc, Sample.twice, Expr.mkGlue, Expr.mkEq, Expr.mkBinary, Expr.result, Expr.exec, Expr.denote, assign, Sample.x, Sample.y, Sample.z, addr, View.size, Shape.size,
      Shape.scl, BOp.real, Expr.shape, Expr.view, Shape.isScl]
  · rw [h3 1 (by simp [Sample.s])]
    simp [Sample.twice, Expr.mkGlue, Expr.mkEq, Expr.mkBinary, Expr.exec, Expr.denote, assign, Sample.x, Sample.y, Sample.z, addr, View.size, Shape.size,
      Shape.scl, BOp.real, Expr.shape, Expr.view, Shape.isScl]

/-- its backward pass alone, without `evaluate`, is defined and leaves the values of `x` and `z` alone -/
example {S : St ℝ} (hS : Later (bindExpr Sample.twice 10 10 0 0 Sample.s).2 S) :
    ∃ S', evaluateAdj (bindExpr Sample.twice 10 10 0 0 Sample.s).1 (fun _ => 1) S = some S' ∧ S'.val 0 = S.val 0 ∧ S'.val 2 = S.val 2 := by
  obtain ⟨S', h1, -, -, h2, -⟩ := C50_evaluate_adj_safe Sample.twice_wf (by simp [Sample.twice, Expr.mkGlue, Expr.mkEq, Expr.flat]) Sample.twice_alive
    (by constructor <;> intro k _ <;> simp [Sample.s] <;> omega) hS (fun _ => 1)
  exact ⟨S', h1, h2 0 (by simp [Sample.s]) (by decide), h2 2 (by simp [Sample.s]) (by decide)⟩

/-- `autodiff` of `z = y * y, y = x * x, z + y` is defined, in any later state -/
example {S : St ℝ} (hS : Later (bindExpr Sample.late 10 10 0 0 Sample.s).2 S) :
    ∃ S' r, autodiff (bindExpr Sample.late 10 10 0 0 Sample.s).1 (fun _ => 1) S = some (S', r) ∧ S'.val 0 = S.val 0 := by
  obtain ⟨S', r, h1, -, -, -, h2, -⟩ := C50_autodiff_safe Sample.late_wf (by simp [Sample.late, Expr.mkGlue, Expr.mkBinary, Expr.flat]) Sample.late_alive
    (by constructor <;> intro k _ <;> simp [Sample.s] <;> omega) hS (fun _ => 1)
  exact ⟨S', r, h1, h2 0 (by simp [Sample.s]) (by decide)⟩

/-- **C50, the gradient is wrong if a placeholder is assigned twice.** The value of `y = x * x, y = x * z` with z = 3 is `3 x` for every value of `x`, but `autodiff` at x = 1 adds 5 to the
adjoint of `x`: the first assignment passes the adjoint of `y` on a second time. -/
theorem C50_false_for_gradient_of_reassigned :
    let b := bindExpr (Sample.twice : Expr ℝ) 10 10 0 0 Sample.s
    (∀ t : ℝ, ∃ s2 r f, evaluate b.1 { b.2 with val := Function.update b.2.val 0 t } = some (s2, r) ∧ r.read s2 1 = some f ∧ f 0 = t * 3) ∧
    ∃ s2 r, autodiff b.1 (fun _ => 1) b.2 = some (s2, r) ∧ s2.adj 0 - b.2.adj 0 = 5 ∧ ¬ HasDerivAt (fun t : ℝ => t * 3) 5 (b.2.val 0) := by
  refine ⟨fun t => ⟨_, _, _, rfl, rfl, ?_⟩, _, _, rfl, ?_, ?_⟩
  · show t * (((2 : ℕ) : ℝ) + 1) = t * 3
    norm_num
  · show (0 : ℝ) + (0 + 1) * (((2 : ℕ) : ℝ) + 1) + (0 + 1 + 0) * (((0 : ℕ) : ℝ) + 1) + (0 + 1 + 0) * (((0 : ℕ) : ℝ) + 1) - 0 = 5
    norm_num
  · intro h
    have h2 := (hasDerivAt_id' (((0 : ℕ) : ℝ) + 1)).mul_const 3
    have := h.unique h2
    norm_num at this

/-- **C50, the gradient is wrong if a variable is used before it is assigned.** The value of `z = y * y, y = x * x, z + y` with x = 1 is `y² + 1` for every value of `y`, but `autodiff` at y = 2 adds 3
to the adjoint of `y`: its factors are read after `y` was overwritten, and the adjoint of the new value of `y` is left in the same cell. -/
theorem C50_false_for_gradient_of_used_before :
    let b := bindExpr (Sample.late : Expr ℝ) 10 10 0 0 Sample.s
    (∀ t : ℝ, ∃ s2 r f, evaluate b.1 { b.2 with val := Function.update b.2.val 1 t } = some (s2, r) ∧ r.read s2 1 = some f ∧ f 0 = t ^ 2 + 1) ∧
    ∃ s2 r, autodiff b.1 (fun _ => 1) b.2 = some (s2, r) ∧ s2.adj 1 - b.2.adj 1 = 3 ∧ ¬ HasDerivAt (fun t : ℝ => t ^ 2 + 1) 3 (b.2.val 1) := by
  refine ⟨fun t => ⟨_, _, _, rfl, rfl, ?_⟩, _, _, rfl, ?_, ?_⟩
  · show t * t + (((0 : ℕ) : ℝ) + 1) * (((0 : ℕ) : ℝ) + 1) = t ^ 2 + 1
    push_cast; ring
  · show (0 : ℝ) + 1 + 0 + (0 + 1 + 0) * ((((0 : ℕ) : ℝ) + 1) * (((0 : ℕ) : ℝ) + 1)) + (0 + 1 + 0) * ((((0 : ℕ) : ℝ) + 1) * (((0 : ℕ) : ℝ) + 1)) - 0 = 3
    norm_num
  · intro h
    have h2 := ((hasDerivAt_id' (((1 : ℕ) : ℝ) + 1)).fun_pow 2).add_const 1
    have := h.unique h2
    norm_num at this

end

/-- the same two samples in fixed-point arithmetic -/
example : ∃ S r f, evaluate (bindExpr (Sample.twice : Expr Fix) 10 10 (fun _ => 0) (fun _ => 0) Fix.s).1 (bindExpr (Sample.twice : Expr Fix) 10 10 (fun _ => 0) (fun _ => 0) Fix.s).2 = some (S, r) ∧
    r.read S 1 = some f ∧ f 0 = exactResultL (Sample.twice : Expr Fix).flat Fix.s.val 0 := by
  obtain ⟨S, r, h1, h2, -⟩ := C50_evaluate (p := (Sample.twice : Expr Fix)) (s := Fix.s) (qv := 10) (qa := 10) (jv := fun _ => 0) (ja := fun _ => 0) Sample.twice_wf
    (by simp [Sample.twice, Expr.mkGlue, Expr.mkEq, Expr.flat])
    (alive_mono Sample.twice_alive (fun a h => by simp [Sample.s, Fix.s] at h ⊢; omega) fun a h => by simp [Sample.s, Fix.s] at h ⊢; omega)
    (by constructor <;> intro k _ <;> simp [Fix.s] <;> omega) ⟨fun _ h => h, fun _ h => h⟩
  exact ⟨S, r, _, h1, h2, by decide⟩

end FastAD
