import Verif.Props.Samples
import Verif.Proof.BlocksApi
import Verif.Proof.Session
import Verif.Proof.ProgBind

/-!
# Blocks with placeholders are expressions

Property C53.  `s` is the memory when the expression is bound and `s1` is any later state of memory: the user may have assigned variables and adjoints, bound and
differentiated other expressions, or this one.
-/

open scoped Topology

namespace FastAD

variable [HasInf ℝ] [LinAlg ℝ]

/-! ### A sample -/

namespace Sample.Block

/-- scalar variables with equal value and adjoint cells -/
def x : View := ⟨.scl, some 0, some 0⟩
@[inherit_doc x] def y : View := ⟨.scl, some 1, some 1⟩
@[inherit_doc x] def w : View := ⟨.scl, some 2, some 2⟩
@[inherit_doc x] def z : View := ⟨.scl, some 3, some 3⟩

/-- `(w = x * y, w * w)` -/
def b1 : Expr ℝ := .mkGlue (.mkEq w (.mkBinary .mul (.var x) (.var y))) (.mkBinary .mul (.var w) (.var w))
/-- `(z = x * x, z * y)` -/
def b2 : Expr ℝ := .mkGlue (.mkEq z (.mkBinary .mul (.var x) (.var x))) (.mkBinary .mul (.var z) (.var y))
/-- `if_else(x < y, sin((w = x * y, w * w)) + (z = x * x, z * y), y)` -/
def e : Expr ℝ := .mkIfElse (.mkBinary .lt (.var x) (.var y)) (.mkBinary .add (.mkUnary .sin b1) b2) (.var y)

/-- memory holding x = 1, y = 2, w = 3, z = 4, with zero adjoints; everything from cell 4 on is free -/
noncomputable def s : St ℝ := ⟨fun a => (a : ℝ) + 1, fun _ => 0, fun a => decide (a < 4), fun a => decide (a < 4)⟩

omit [HasInf ℝ] [LinAlg ℝ] in
theorem e_nwf : e.NWF := by
  simp [e, b1, b2, Expr.NWF, Expr.NStm, Expr.mkBinary, Expr.mkUnary, Expr.mkGlue, Expr.mkEq, Expr.mkIfElse, Expr.shape, Expr.view, View.null, Expr.binShape, Shape.ofDims,
    Shape.maxKind, x, y, w, z, Shape.scl, Shape.Ok, binDimsOk, sameDims, Shape.isScl, Expr.isIf, BOp.isComparison, Expr.Assignable, Expr.NotConst]

omit [HasInf ℝ] [LinAlg ℝ] in
theorem e_vars : ∀ u ∈ e.vars, u = x ∨ u = y ∨ u = w ∨ u = z := by
  intro u hu
  simp [e, b1, b2, Expr.mkBinary, Expr.mkUnary, Expr.mkGlue, Expr.mkEq, Expr.mkIfElse, Expr.vars] at hu
  tauto

omit [HasInf ℝ] [LinAlg ℝ] in
theorem e_places : e.places = [w, z] := rfl

omit [HasInf ℝ] [LinAlg ℝ] in
theorem e_blocks : e.WithBlocks := by
  refine ⟨e_nwf, ?_, fun v hv => ?_⟩
  · rw [e_places]
    simp [Distinct, Set.disjoint_left, rng, w, z, addr, View.size, Shape.size, Shape.scl]
    omega
  · rw [e_places] at hv
    simp only [List.mem_cons, List.not_mem_nil, or_false] at hv
    rcases hv with rfl | rfl <;> constructor <;> rw [Set.disjoint_left] <;> intro a ha h <;>
      simp [rng, w, z, addr, View.size, Shape.size, Shape.scl] at ha <;>
      simp [e, b1, b2, Expr.mkBinary, Expr.mkUnary, Expr.mkGlue, Expr.mkEq, Expr.mkIfElse, Expr.reads, Expr.readsA, Expr.defs, Expr.defsA,
        rng, x, y, w, z, addr, View.size, Shape.size, Shape.scl] at h <;> omega

omit [HasInf ℝ] [LinAlg ℝ] in
theorem e_alive : e.Alive s.vok s.aok := by
  constructor
  · intro u hu
    rcases e_vars u hu with rfl | rfl | rfl | rfl <;> constructor <;> intro k hk <;>
      simp [x, y, w, z, View.size, Shape.size, Shape.scl, s] at hk ⊢ <;> omega
  · intro c hc
    simp [e, b1, b2, Expr.mkBinary, Expr.mkUnary, Expr.mkGlue, Expr.mkEq, Expr.mkIfElse, Expr.cviews] at hc

omit [HasInf ℝ] [LinAlg ℝ] in
theorem e_fresh : Fresh s e.bindSize 10 10 := by
  constructor <;> intro k _ <;> simp [s] <;> omega

omit [HasInf ℝ] [LinAlg ℝ] in
theorem e_paired : e.Paired id := by
  intro u hu k hk
  rcases e_vars u hu with rfl | rfl | rfl | rfl <;> rfl

theorem e_denote (m : ℕ → ℝ) : e.denote m 0 = if m 0 < m 1 then Real.sin ((m 0 * m 1) * (m 0 * m 1)) + m 0 * m 0 * m 1 else m 1 := by
  by_cases h : m 0 < m 1 <;>
    simp [e, b1, b2, Expr.mkBinary, Expr.mkUnary, Expr.mkGlue, Expr.mkEq, Expr.mkIfElse, Expr.denote, Expr.exec, assign, x, y, w, z, addr, View.size, Shape.size,
      Shape.scl, BOp.real, UOp.real, Expr.shape, Expr.view, Shape.isScl, ind, h]

theorem e_reg' (m : ℕ → ℝ) (h : m 0 < m 1) : e.Reg (fun t => Function.update m 0 t) (m 0) := by
  have h1 : ∀ᶠ t in 𝓝 (m 0), t < m 1 := Iio_mem_nhds h
  simp only [e, Expr.mkIfElse, Expr.Reg]
  have hc : ∀ m : ℕ → ℝ, (Expr.mkBinary .lt (.var x) (.var y) : Expr ℝ).denote m 0 ≠ 0 ↔ m 0 < m 1 := by
    intro m
    by_cases h : m 0 < m 1 <;>
      simp [Expr.mkBinary, Expr.denote, x, y, addr, BOp.real, Expr.shape, Expr.view, Shape.isScl, Shape.scl, ind, h]
  simp only [hc]
  refine ⟨?_, ?_⟩
  · filter_upwards [h1] with t ht
    simp [ht, h]
  · rw [if_pos (by simpa using h)]
    simp [b1, b2, Expr.mkBinary, Expr.mkUnary, Expr.mkGlue, Expr.mkEq, Expr.Reg, Expr.RegS, BOp.isComparison, UOp.DomAt]

end Sample.Block

/-- **C53.** Let `e` be an expression in which blocks `(w1 = e1, ..., wn = en, r)` occur as operands at any depth: under functions and operators, in the condition or the
branches of `if_else`, in sums, products, reductions and log-densities, or in the definitions and results of other blocks.  After binding, in any later state of memory in which the
adjoints of the placeholders are zero, `autodiff` is defined, returns the value of the function the expression denotes (in which a block means its result with its definitions
substituted), and adds to the adjoint of every variable that is not a placeholder the derivative of `∑ₖ seed k * e_k`: as a directional derivative for every
direction, and element by element. -/
theorem C53_block_gradient [LawfulLinAlg] {e : Expr ℝ} {s s1 : St ℝ} {qv qa : ℕ} {jv ja : ℕ → ℝ} (hwf : e.WithBlocks)
    (hal : e.Alive s.vok s.aok) (hf : Fresh s e.bindSize qv qa) (hl : Later (bindExpr e qv qa jv ja s).2 s1)
    (hz : ∀ v ∈ e.places, ∀ k < v.size, s1.adj (addr v.adj + k) = 0) (seed : ℕ → ℝ) :
    ∃ s2 r, autodiff (bindExpr e qv qa jv ja s).1 seed s1 = some (s2, r) ∧
      r.read s2 e.size = some (trunc e.size (e.denote s1.val)) ∧
      ∀ π, e.Paired π → Set.InjOn π e.adjCells → (∀ v ∈ e.places, ∀ k < v.size, addr v.val + k ∉ e.constCells) →
        (∀ u, (∀ c ∈ e.constCells, u c = 0) → (∀ v ∈ e.places, ∀ k < v.size, u (addr v.val + k) = 0) → e.Reg (shift s1.val u) 0 →
          HasDerivAt (fun t => ∑ k ∈ Finset.range e.size, seed k * e.denote (shift s1.val u t) k)
            (∑ a ∈ e.adjCells, (s2.adj a - s1.adj a) * u (π a)) 0) ∧
        (∀ a ∈ e.adjCells, π a ∉ e.constCells → (∀ v ∈ e.places, ∀ k < v.size, a ≠ addr v.adj + k) →
          e.Reg (fun t => Function.update s1.val (π a) t) (s1.val (π a)) →
          HasDerivAt (fun t => ∑ k ∈ Finset.range e.size, seed k * e.denote (Function.update s1.val (π a) t) k)
            (s2.adj a - s1.adj a) (s1.val (π a))) := by
  have hz' : ∀ a ∈ pas e.places, s1.adj a = 0 := by
    rintro a ⟨v, hv, ha⟩
    obtain ⟨k, hk, rfl⟩ := mem_rng_iff.1 ha
    exact hz v hv k hk
  obtain ⟨s2, r, h⟩ := ((bindExpr_bndN (jv := jv) (ja := ja) hwf hal hf).mono hl.1 hl.2).autodiff (fun _ _ => rfl) hz' seed
  have key : ∀ a ∈ e.adjCells, a ∉ pas e.places → s2.adj a - s1.adj a = e.grad s1.val seed a := by
    intro a ha hp
    rw [h.adj a fun hm => hm.elim (fun hb => fresh_block hf.2 (adjCells_alive hal a ha) (by simpa [blockA, mem_rng, addr_some] using hb)) hp]
    ring
  refine ⟨s2, r, h.run, h.value, fun π hπ hinj hc => ⟨fun u hu hu' hreg => ?_, fun a ha hca hpl hreg => ?_⟩⟩
  · rw [Finset.sum_congr rfl fun a ha => show (s2.adj a - s1.adj a) * u (π a) = e.grad s1.val seed a * u (π a) from ?_]
    · exact grad_directionalN hwf hπ hinj hc hu hreg seed
    · by_cases hp : a ∈ pas e.places
      · obtain ⟨v, hv, hr⟩ := hp
        obtain ⟨k, hk, rfl⟩ := mem_rng_iff.1 hr
        rw [hπ v (places_vars e v hv) k hk, hu' v hv k hk, mul_zero, mul_zero]
      · rw [key a ha hp]
  · rw [key a ha]
    · exact grad_partialN hwf hπ hinj hc ha hca hreg seed
    · rintro ⟨v, hv, hr⟩
      obtain ⟨k, hk, rfl⟩ := mem_rng_iff.1 hr
      exact hpl v hv k hk rfl

/-- C53 applied to `if_else(x < y, sin((w = x * y, w * w)) + (z = x * x, z * y), y)` at `x = 1`, `y = 2`: the adjoint of `x` becomes `8 cos 4 + 4`. -/
example [LawfulLinAlg] : ∃ s2 r, autodiff (bindExpr Sample.Block.e 10 10 0 0 Sample.Block.s).1 1 (bindExpr Sample.Block.e 10 10 0 0 Sample.Block.s).2 = some (s2, r) ∧
    s2.adj 0 = 8 * Real.cos 4 + 4 := by
  have hv : ∀ a < 10, (bindExpr Sample.Block.e 10 10 0 0 Sample.Block.s).2.val a = Sample.Block.s.val a := by
    intro a ha
    simp only [bindExpr, St.allocate, fillRange]
    rw [if_neg (by omega)]
  have ha : ∀ a < 10, (bindExpr Sample.Block.e 10 10 0 0 Sample.Block.s).2.adj a = 0 := by
    intro a ha
    simp only [bindExpr, St.allocate, fillRange]
    rw [if_neg (by omega)]
    rfl
  obtain ⟨s2, r, h, -, h2⟩ := C53_block_gradient (jv := 0) (ja := 0) Sample.Block.e_blocks Sample.Block.e_alive Sample.Block.e_fresh ⟨fun _ h => h, fun _ h => h⟩
    (fun v hv k hk => by
      rw [Sample.Block.e_places] at hv
      simp only [List.mem_cons, List.not_mem_nil, or_false] at hv
      rcases hv with rfl | rfl <;> simp only [Sample.Block.w, Sample.Block.z, View.size, Shape.size, Shape.scl, addr] at hk ⊢ <;> exact ha _ (by simp at hk ⊢; omega)) 1
  refine ⟨s2, r, h, ?_⟩
  have hd := (h2 id Sample.Block.e_paired (Set.injOn_id _) (by
    intro v _ k _ h
    simp [Expr.constCells, Sample.Block.e, Sample.Block.b1, Sample.Block.b2, Expr.mkBinary, Expr.mkUnary, Expr.mkGlue, Expr.mkEq, Expr.mkIfElse, Expr.cviews] at h)).2 0
    (by decide) (by decide) (by
      intro v hv k hk
      rw [Sample.Block.e_places] at hv
      simp only [List.mem_cons, List.not_mem_nil, or_false] at hv
      rcases hv with rfl | rfl
      · exact show (0 : ℕ) ≠ 2 + k by omega
      · exact show (0 : ℕ) ≠ 3 + k by omega)
    (Sample.Block.e_reg' _ (by rw [hv 0 (by omega), hv 1 (by omega)]; simp [Sample.Block.s]))
  have h0 : (bindExpr Sample.Block.e 10 10 0 0 Sample.Block.s).2.val 0 = 1 := by rw [hv 0 (by omega)]; simp [Sample.Block.s]
  have h1 : (bindExpr Sample.Block.e 10 10 0 0 Sample.Block.s).2.val 1 = 2 := by rw [hv 1 (by omega)]; norm_num [Sample.Block.s]
  rw [ha 0 (by omega), sub_zero] at hd
  simp only [show Sample.Block.e.size = 1 from rfl, Finset.sum_range_one, Pi.one_apply, one_mul, Sample.Block.e_denote, id] at hd
  rw [h0] at hd
  simp only [Function.update_self, Function.update_of_ne (show (1 : ℕ) ≠ 0 by omega), h1] at hd
  have hd' : HasDerivAt (fun t : ℝ => Real.sin ((t * 2) * (t * 2)) + t * t * 2) (s2.adj 0) 1 := by
    refine hd.congr_of_eventuallyEq ?_
    filter_upwards [Iio_mem_nhds (show (1 : ℝ) < 2 by norm_num)] with t ht
    rw [if_pos (Set.mem_Iio.1 ht)]
  have hi := hasDerivAt_id' (1 : ℝ)
  have he : HasDerivAt (fun t : ℝ => Real.sin ((t * 2) * (t * 2)) + t * t * 2) (8 * Real.cos 4 + 4) 1 := by
    refine (((hi.mul_const 2).fun_mul (hi.mul_const 2)).sin.fun_add ((hi.fun_mul hi).mul_const 2)).congr_deriv ?_
    norm_num
    ring
  exact hd'.unique he

/-- **C53, evaluation and what is left alone.** In any later state of memory, whatever the adjoints are, `evaluate` is defined and returns the value of the function the expression
denotes; it changes no adjoint and no value outside of the caches and the placeholders.  If the adjoints of the placeholders are zero, `autodiff` changes no value outside
of the caches and the placeholders, and no adjoint outside of the caches and the variables of the expression. -/
theorem C53_block_evaluate {e : Expr ℝ} {s s1 : St ℝ} {qv qa : ℕ} {jv ja : ℕ → ℝ} (hwf : e.WithBlocks)
    (hal : e.Alive s.vok s.aok) (hf : Fresh s e.bindSize qv qa) (hl : Later (bindExpr e qv qa jv ja s).2 s1) (seed : ℕ → ℝ) :
    (∃ s2 r, evaluate (bindExpr e qv qa jv ja s).1 s1 = some (s2, r) ∧
      r.read s2 e.size = some (trunc e.size (e.denote s1.val)) ∧ s2.adj = s1.adj ∧
      ∀ a, ¬ (qv ≤ a ∧ a < qv + e.bindSize.val) → (∀ v ∈ e.places, ∀ k < v.size, a ≠ addr v.val + k) → s2.val a = s1.val a) ∧
    ((∀ v ∈ e.places, ∀ k < v.size, s1.adj (addr v.adj + k) = 0) → ∃ s2 r, autodiff (bindExpr e qv qa jv ja s).1 seed s1 = some (s2, r) ∧
      (∀ a, ¬ (qv ≤ a ∧ a < qv + e.bindSize.val) → (∀ v ∈ e.places, ∀ k < v.size, a ≠ addr v.val + k) → s2.val a = s1.val a) ∧
      ∀ a, ¬ (qa ≤ a ∧ a < qa + e.bindSize.adj) → a ∉ e.adjCells → s2.adj a = s1.adj a) := by
  have hb := (bindExpr_bndN (jv := jv) (ja := ja) hwf hal hf).mono hl.1 hl.2
  have hV : ∀ a, ¬ (qv ≤ a ∧ a < qv + e.bindSize.val) → (∀ v ∈ e.places, ∀ k < v.size, a ≠ addr v.val + k) → a ∉ blockV qv e.bindSize ∪ pvs e.places := by
    rintro a h1 h2 (hm | ⟨v, hv, hm⟩)
    · exact h1 (by simpa [blockV, mem_rng, addr_some] using hm)
    · obtain ⟨k, hk, rfl⟩ := mem_rng_iff.1 hm
      exact h2 v hv k hk rfl
  refine ⟨?_, fun hz => ?_⟩
  · obtain ⟨s2, r, h⟩ := hb.evaluate (m := s1.val) fun _ _ => rfl
    exact ⟨s2, r, h.run, h.value s2 rfl rfl, h.adj, fun a h1 h2 => h.frame a (hV a h1 h2)⟩
  · obtain ⟨s2, r, h⟩ := hb.autodiff (m := s1.val) (fun _ _ => rfl) (fun a ⟨v, hv, ha⟩ => by
      obtain ⟨k, hk, rfl⟩ := mem_rng_iff.1 ha
      exact hz v hv k hk) seed
    refine ⟨s2, r, h.run, fun a h1 h2 => h.val a (hV a h1 h2), fun a h1 h2 => ?_⟩
    rw [h.adj a, grad_support _ e _ a fun hr => h2 (readsA_cells e a hr), add_zero]
    rintro (hm | ⟨v, hv, hm⟩)
    · exact h1 (by simpa [blockA, mem_rng, addr_some] using hm)
    · exact h2 (mem_adjCells.2 ⟨v, places_vars e v hv, hm⟩)

/-- evaluation of the sample: `sin 4 + 2`; `x` and `y` are unchanged -/
example : ∃ s2 r, evaluate (bindExpr Sample.Block.e 10 10 0 0 Sample.Block.s).1 (bindExpr Sample.Block.e 10 10 0 0 Sample.Block.s).2 = some (s2, r) ∧
    (∃ f, r.read s2 1 = some f ∧ f 0 = Real.sin 4 + 2) ∧ s2.val 0 = 1 ∧ s2.val 1 = 2 := by
  have hv : ∀ a < 10, (bindExpr Sample.Block.e 10 10 0 0 Sample.Block.s).2.val a = Sample.Block.s.val a := by
    intro a ha
    simp only [bindExpr, St.allocate, fillRange]
    rw [if_neg (by omega)]
  have h0 : (bindExpr Sample.Block.e 10 10 0 0 Sample.Block.s).2.val 0 = 1 := by rw [hv 0 (by omega)]; simp [Sample.Block.s]
  have h1 : (bindExpr Sample.Block.e 10 10 0 0 Sample.Block.s).2.val 1 = 2 := by rw [hv 1 (by omega)]; norm_num [Sample.Block.s]
  obtain ⟨⟨s2, r, h, h2, -, h3⟩, -⟩ := C53_block_evaluate (jv := 0) (ja := 0) Sample.Block.e_blocks Sample.Block.e_alive Sample.Block.e_fresh ⟨fun _ h => h, fun _ h => h⟩ 1
  have hp : ∀ a < 2, ∀ v ∈ Sample.Block.e.places, ∀ k < v.size, a ≠ addr v.val + k := by
    intro a ha v hv k hk
    rw [Sample.Block.e_places] at hv
    simp only [List.mem_cons, List.not_mem_nil, or_false] at hv
    rcases hv with rfl | rfl <;> simp [Sample.Block.w, Sample.Block.z, addr] <;> omega
  refine ⟨s2, r, h, ⟨_, h2, ?_⟩, ?_, ?_⟩
  · simp only [trunc, show Sample.Block.e.size = 1 from rfl, Nat.lt_one_iff, if_true]
    rw [Sample.Block.e_denote, h0, h1]
    norm_num
  · rw [h3 0 (by omega) (hp 0 (by omega)), h0]
  · rw [h3 1 (by omega) (hp 1 (by omega)), h1]

end FastAD
