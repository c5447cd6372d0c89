import Verif.Proof.HessianProg
import Verif.Props.Hessian
import Verif.Props.Program

/-!
# Second derivatives: programs

Property C55 for programs with placeholders and compound assignments.
-/

open Filter Topology

namespace FastAD

section
variable [HasInf ℝ] [LinAlg ℝ] [HasInf (Dual ℝ)] [LinAlg (Dual ℝ)]

/-- **C55, programs.** Let a program be written for the scalar type `ForwardVar`, let its variables other than placeholders hold the values `m` and the tangents `u`, and let the adjoints of the assigned variables be 0.  After `autodiff`
(from any history) a scalar value is that of the composed function, its tangent is the directional derivative; the adjoint of every variable other than a placeholder has increased by the partial derivative of the composed function, and its tangent
by the derivative, in the direction `u`, of this partial derivative. -/
theorem C55_program_directional_partial [LawfulLinAlg] {p : Expr ℝ} {m u : ℕ → ℝ} (hp : p.Program) (hi : InsideSeq fwdDoms p.flat m) {s S : St (Dual ℝ)} {qv qa : ℕ} {jv ja : ℕ → Dual ℝ}
    (hal : p.Alive s.vok s.aok) (hf : Fresh s p.bindSize qv qa) (hS : Later (bindExpr (p.map Dual.ofVal) qv qa jv ja s).2 S)
    (hval : ∀ c ∈ (p.valCells ∪ p.constCells) \ p.placeCells, S.val c = ⟨m c, u c⟩) (hz : ∀ a ∈ p.targetAdj, S.adj a = 0) (σ : ℕ → ℝ) :
    ∃ S' r y, autodiff (bindExpr (p.map Dual.ofVal) qv qa jv ja s).1 (fun k => .ofVal (σ k)) S = some (S', r) ∧ r.read S' p.size = some y ∧
      (p.shape.isScl = true → (y 0).w = p.result m 0 ∧ HasDerivAt (fun t => p.result (shift m u t) 0) (y 0).df 0) ∧
      ∀ π, p.Paired π → Set.InjOn π p.adjCells → (∀ c ∈ p.constCells, c ∉ p.targetCells) → ∀ a ∈ p.adjCells, π a ∉ p.constCells → π a ∉ p.placeCells →
        ∃ D : ℝ → ℝ, (∀ᶠ t in 𝓝 0, HasDerivAt (fun x => ∑ k ∈ Finset.range p.size, σ k * p.result (Function.update (shift m u t) (π a) x) k) (D t) (shift m u t (π a))) ∧
          (S'.adj a).w = (S.adj a).w + D 0 ∧ HasDerivAt D ((S'.adj a).df - (S.adj a).df) 0 := by
  have hp' := map_program Dual.ofVal hp
  have hal' := (map_alive Dual.ofVal).2 hal
  have hf' : Fresh s (p.map Dual.ofVal).bindSize qv qa := by rw [map_bindSize]; exact hf
  obtain ⟨S', r, h⟩ := (later_prog hp' hal' hf' hS).gautodiff (m := S.val) (known_block hal' hf') hp'.needOk (fun _ _ => rfl) hp'.shapeOk (fun k => .ofVal (σ k))
  have hval' : ∀ a ∈ p.known, S.val a = ⟨m a, u a⟩ := fun a ha => hval a (Finset.mem_coe.1 ha)
  have hin := insideSeq_dual hp hi (M := S.val) fun a ha => by rw [hval' a ha]
  have hir := insideSeq_fwd_real hp hi
  have hm : ∀ a ∈ p.known, Tan (S.val a) fun t => shift m u t a := by
    intro a ha
    rw [hval' a ha]
    refine ⟨by simp [shift], ?_⟩
    simpa [shift] using ((hasDerivAt_id (0 : ℝ)).mul_const (u a)).const_add (m a)
  have h0 : shift m u 0 = m := by funext c; simp [shift]
  let A : ℝ → ℕ → ℝ := fun t a => (S.adj a).w + t * (S.adj a).df
  have hA : ∀ a, Tan (S.adj a) fun t => A t a := by
    intro a
    refine ⟨by simp [A], ?_⟩
    simpa [A] using ((hasDerivAt_id (0 : ℝ)).mul_const (S.adj a).df).const_add (S.adj a).w
  have hsz : sizeR p.flat = p.size := by
    have := List.getLast?_eq_getLast_of_ne_nil hp.nonempty
    rw [sizeR_last _ this, Expr.size, Expr.size, shape_last p hp.tree _ this]
  have hL := (related_execL Dual.ofVal (fun (_ : ℝ) x => x) tan_related Tan.ofVal p.flat p.known S.val (fun t => shift m u t) hp.stmts hp.needOk hin hm).2
  have hG := related_gbackL Dual.ofVal (fun (_ : ℝ) x => x) tan_related Tan.ofVal (fun y (hy : y.w ≠ 0) => mul_ne_zero hy hy) (DA := (p.adjCells : Set ℕ)) (A := S.adj) (A' := A)
    (seed := fun k => .ofVal (σ k)) (seed' := fun _ => σ)
    (fun a _ => hA a) p.flat p.known S.val (fun t => shift m u t) (fun x hx => ⟨hp.stmts x hx, (hp.lite x hx).2⟩) hp.needOk hin hm (fun k _ => Tan.ofVal _)
  simp only [← map_flat, map_id] at hL hG
  have hnear := insideSeq_near hp.stmts hir (fun a => shift_tendsto m u a)
  refine ⟨S', r, _, h.run, by rw [← map_size Dual.ofVal p]; exact h.value, fun hs => ?_, fun π hπ hinj hct a ha hc hpl => ⟨fun t => backL p.flat (shift m u t) σ (A t) a - A t a, ?_, ?_⟩⟩
  · have h1 : p.size = 1 := hp.shapeOk.size_scl hs
    have hev : ∀ᶠ t in 𝓝 (0 : ℝ), exactResultL p.flat (shift m u t) 0 = p.result (shift m u t) 0 := hnear.mono fun t ht => by
      rw [(exactL_real p.flat _ hp.stmts ht).1, result_tree p hp.tree hp.nonempty]
    have h2 := hL 0 (by omega)
    simp only [map_size, map_shape, hs, if_true, trunc_of_lt (show 0 < p.size by omega)]
    refine ⟨?_, h2.2.congr_of_eventuallyEq (hev.mono fun t ht => ht.symm)⟩
    rw [← h2.1]
    beta_reduce
    rw [hev.self_of_nhds, h0]
  · filter_upwards [hnear] with t ht
    refine prog_partial hp ⟨hπ, hinj, hct⟩ ha hc hpl (insideSeq_reg _ _ hp.stmts (fun c => ?_) (by rwa [Function.update_eq_self])) σ (A t) (fun a ha => ?_)
    · by_cases hca : c = π a
      · subst hca; simp only [Function.update_self]; exact tendsto_id
      · simp only [Function.update_of_ne hca]; exact tendsto_const_nhds
    · show (S.adj a).w + t * (S.adj a).df = 0
      rw [hz a ha]
      show (0 : ℝ) + t * 0 = 0
      simp
  · have h1 := hG a (Finset.mem_coe.2 ha)
    rw [← h.adj a (by rw [map_bindSize]; exact notin_blockA hf (adjCells_alive hal a ha))] at h1
    simp only [gbackL_real hp hal hf _ σ _ ha] at h1
    refine ⟨?_, h1.2.fun_sub (hA a).2⟩
    rw [← h1.1, (hA a).1.symm]
    ring

end

namespace HessianSample

/-- the state of the sample program: x = 1 with tangent 1, v = (2, 3) with tangents 0, the placeholder holds rubbish -/
noncomputable def t2 : St (Dual ℝ) := ⟨fun a => ⟨(a : ℝ) + 1, if a = 0 then 1 else 0⟩, fun _ => 0, fun a => decide (a < 4), fun a => decide (a < 4)⟩

theorem p_inside [HasInf ℝ] [LinAlg ℝ] (m : ℕ → ℝ) : InsideSeq fwdDoms Sample.p.flat m := by
  rw [Sample.p_flat]
  simp [InsideSeq, Expr.InsideStmt, Expr.mkEq, Expr.mkOpEq, Expr.mkReduce, Expr.mkBinary, Expr.mkUnary, Expr.Inside, Exprs.Insides, fwdDoms, UOp.DomAt]

/-- `w = x * sin(x), v *= w, sum(v)` at `x = 1`, `v = (2, 3)`: the tangent of the adjoint of `x` in the direction of `x` is the second derivative `5 (2 cos 1 - sin 1)` of `5 x sin x`. -/
example [HasInf ℝ] [LinAlg ℝ] [LawfulLinAlg] [HasInf (Dual ℝ)] [LinAlg (Dual ℝ)] :
    ∃ S' r, autodiff (bindExpr (Sample.p.map Dual.ofVal) 10 10 0 0 t2).1 (fun _ => .ofVal 1) (bindExpr (Sample.p.map Dual.ofVal) 10 10 0 0 t2).2 = some (S', r) ∧
      (S'.adj 0).df = 5 * (2 * Real.cos 1 - Real.sin 1) := by
  have hcell : ∀ c ∈ Sample.p.valCells ∪ Sample.p.constCells, c < 4 := by decide
  have hacell : ∀ c ∈ Sample.p.targetAdj, c < 4 := by decide
  obtain ⟨S', r, y, h1, -, -, h3⟩ := C55_program_directional_partial (p := Sample.p) (m := Sample.t.val) (u := fun a => if a = 0 then 1 else 0) Sample.p_program (p_inside _) (s := t2)
    (S := (bindExpr (Sample.p.map Dual.ofVal) 10 10 0 0 t2).2) (qv := 10) (qa := 10) (jv := 0) (ja := 0) Sample.p_alive ⟨Sample.p_fresh.1, Sample.p_fresh.2⟩ ⟨fun _ h => h, fun _ h => h⟩
    (fun c hc => if_neg (by have := hcell c (Finset.mem_sdiff.1 hc).1; omega)) (fun a ha => if_neg (by have := hacell a ha; omega)) fun _ => 1
  refine ⟨S', r, h1, ?_⟩
  obtain ⟨D, hD, -, hd⟩ := h3 id Sample.p_paired (Set.injOn_id _) (by decide) 0 (by decide) (by decide) (by decide)
  have h4 : D =ᶠ[𝓝 0] fun t => 5 * (Real.sin (1 + t) + (1 + t) * Real.cos (1 + t)) := by
    filter_upwards [hD] with t ht
    have hs : Sample.p.size = 1 := by decide
    have e0 : shift Sample.t.val (fun a => if a = 0 then (1 : ℝ) else 0) t 0 = 1 + t := by simp [shift, Sample.t]
    have e1 : shift Sample.t.val (fun a => if a = 0 then (1 : ℝ) else 0) t 1 = 2 := by simp [shift, Sample.t]; norm_num
    have e2 : shift Sample.t.val (fun a => if a = 0 then (1 : ℝ) else 0) t 2 = 3 := by simp [shift, Sample.t]; norm_num
    simp only [hs, Finset.range_one, Finset.sum_singleton, Sample.p_result, one_mul, id, Function.update_self, Function.update_of_ne (show (1 : ℕ) ≠ 0 by decide), Function.update_of_ne (show (2 : ℕ) ≠ 0 by decide), e0, e1, e2] at ht
    have h5 : HasDerivAt (fun x => 2 * (x * Real.sin x) + 3 * (x * Real.sin x)) (2 * (1 * Real.sin (1 + t) + (1 + t) * Real.cos (1 + t)) + 3 * (1 * Real.sin (1 + t) + (1 + t) * Real.cos (1 + t))) (1 + t) :=
      (((hasDerivAt_id (1 + t)).mul (Real.hasDerivAt_sin (1 + t))).const_mul 2).fun_add (((hasDerivAt_id (1 + t)).mul (Real.hasDerivAt_sin (1 + t))).const_mul 3)
    rw [ht.unique h5]
    ring
  have h6 : HasDerivAt (fun t : ℝ => 1 + t) 1 0 := (hasDerivAt_id (0 : ℝ)).const_add 1
  have h7 := ((h6.sin.fun_add (h6.fun_mul h6.cos)).const_mul 5)
  have h8 := (hd.congr_of_eventuallyEq h4.symm).unique h7
  have h9 : ((bindExpr (Sample.p.map Dual.ofVal) 10 10 0 0 t2).2.adj 0).df = 0 := rfl
  rw [h9, sub_zero] at h8
  rw [h8]
  norm_num
  ring

/-- `w = x[0] * x[1], w`: the placeholder has value cell 2, adjoint cell 2 -/
def P {α : Type} : Expr α := .mkGlue (.mkEq ⟨.scl, some 2, some 2⟩ (.mkBinary .mul (x 0) (x 1))) (.var ⟨.scl, some 2, some 2⟩)

/-- `x = (1, 1)`, all tangents and adjoints 0 -/
noncomputable def t3 : St (Dual ℝ) := ⟨fun _ => ⟨1, 0⟩, fun _ => ⟨0, 0⟩, fun a => decide (a < 3), fun a => decide (a < 3)⟩

/-- **C55, placeholders.** The loop of `hessian_gen` is wrong for programs with placeholders: it resets the adjoints of `x` only (hessian.hpp:28,50), and from the second round on the adjoint which the round before left in the placeholder is
passed on again.  The Hessian of `w = x[0] * x[1], w` at (1, 1) is found to have the column (2, 0) instead of (1, 0). -/
theorem C55_false_for_placeholders [HasInf ℝ] [LinAlg ℝ] [HasInf (Dual ℝ)] [LinAlg (Dual ℝ)] :
    (∀ m : ℕ → ℝ, (P (α := ℝ)).result m 0 = m 0 * m 1) ∧
    ∃ S' out, hessian (bindExpr P 10 10 0 0 t3).1 0 0 2 (bindExpr P 10 10 0 0 t3).2 = some (S', out) ∧ ∃ h : out.length = 2,
      (out[0]).2 0 = 0 ∧ (out[0]).2 1 = 1 ∧ (out[1]).2 0 = 2 ∧ (out[1]).2 1 = 0 := by
  refine ⟨fun m => ?_, _, _, rfl, rfl, ?_, ?_, ?_, ?_⟩
  · simp [P, x, Expr.mkGlue, Expr.mkEq, Expr.mkBinary, Expr.result, Expr.exec, Expr.denote, assign, addr, View.size, Shape.size, Shape.scl, BOp.real, Expr.shape, Expr.view, Shape.isScl]
  · show ((0 : Dual ℝ) + (⟨0, 0⟩ + 1 + 0) * ⟨1, 0⟩).df = 0
    show (0 : ℝ) + ((0 + 1 + 0) * 0 + (0 + 0 + 0) * 1) = 0
    norm_num
  · show ((0 : Dual ℝ) + (⟨0, 0⟩ + 1 + 0) * ⟨1, 1⟩).df = 1
    show (0 : ℝ) + ((0 + 1 + 0) * 1 + (0 + 0 + 0) * 1) = 1
    norm_num
  · show ((0 : Dual ℝ) + (⟨0, 0⟩ + 1 + 0 + 1 + 0) * ⟨1, 1⟩).df = 2
    show (0 : ℝ) + ((0 + 1 + 0 + 1 + 0) * 1 + (0 + 0 + 0 + 0 + 0) * 1) = 2
    norm_num
  · show ((0 : Dual ℝ) + (⟨0, 0⟩ + 1 + 0 + 1 + 0) * ⟨1, 0⟩).df = 0
    show (0 : ℝ) + ((0 + 1 + 0 + 1 + 0) * 0 + (0 + 0 + 0 + 0 + 0) * 1) = 0
    norm_num

end HessianSample

end FastAD
