import Verif.Proof.Hessian
import Mathlib.Tactic.FinCases

/-!
# Second derivatives

Property C55: reverse mode with forward variables as scalars (`reverse/core/hessian.hpp`).

The full statement is that of the two theorems below for *every* expression of functions that exist for forward variables.  Missing (`_partial`): `erf`, for which it is false (`C55_false_for_erf`), and points at which only one of the derivatives
exists; programs are in `Props/HessianProg`.  The header itself is not included by the library and refers to names which no longer exist; its loop is modelled with a bound expression.
-/

open Filter Topology

namespace FastAD

section
variable [HasInf ℝ] [LinAlg ℝ] [HasInf (Dual ℝ)] [LinAlg (Dual ℝ)]

/-- **C55, a direction.** Let a side-effect-free expression be written for the scalar type `ForwardVar`, and let the forward variables hold the values `m` and the tangents `u`.  After `autodiff` (from any history) the returned values
are the values of the expression, their tangents are its directional derivatives; every adjoint has increased by the partial derivative, and its tangent by the directional derivative, in the direction `u`, of this partial derivative: the
Hessian is applied to `u`. -/
theorem C55_directional_partial [LawfulLinAlg] {e : Expr ℝ} {m u : ℕ → ℝ} (hwf : e.WF) (hi : e.Inside fwdDoms m) {s S : St (Dual ℝ)} {qv qa : ℕ} {jv ja : ℕ → Dual ℝ}
    (hal : e.Alive s.vok s.aok) (hf : Fresh s e.bindSize qv qa)
    (hSv : ∀ a, (bindExpr (e.map Dual.ofVal) qv qa jv ja s).2.vok a = true → S.vok a = true)
    (hSa : ∀ a, (bindExpr (e.map Dual.ofVal) qv qa jv ja s).2.aok a = true → S.aok a = true)
    (hval : ∀ c ∈ e.valCells ∪ e.constCells, S.val c = ⟨m c, u c⟩) (σ : ℕ → ℝ) :
    ∃ S' r y, autodiff (bindExpr (e.map Dual.ofVal) qv qa jv ja s).1 (fun k => .ofVal (σ k)) S = some (S', r) ∧ r.read S' e.size = some y ∧
      (∀ k < e.size, (y k).w = e.denote m k ∧ HasDerivAt (fun t => e.denote (shift m u t) k) (y k).df 0) ∧
      ∀ π, e.Paired π → Set.InjOn π e.adjCells → (∀ a ∈ e.adjCells, π a ∉ e.constCells) → ∀ a ∈ e.adjCells,
        ∃ D : ℝ → ℝ, (∀ᶠ t in 𝓝 0, HasDerivAt (fun x => ∑ k ∈ Finset.range e.size, σ k * e.denote (Function.update (shift m u t) (π a) x) k) (D t) (shift m u t (π a))) ∧
          (S'.adj a).w = (S.adj a).w + D 0 ∧ HasDerivAt D ((S'.adj a).df - (S.adj a).df) 0 := by
  have hb := (bindExpr_bnd (s := s) (jv := jv) (ja := ja) (map_wf Dual.ofVal hwf) ((map_alive _).2 hal) (by rw [map_bindSize]; exact hf)).mono hSv hSa
  obtain ⟨S', r, y, h⟩ := dual_autodiff hb hwf hal hf hi (fun c hc => hval c (Finset.mem_union.2 (reads_cells e c hc))) σ
  refine ⟨S', r, y, h.run, h.read, h.value, fun π hπ hinj hc a ha => ⟨fun t => e.grad (shift m u t) σ a, ?_, ?_⟩⟩
  · filter_upwards [inside_near hwf (inside_fwd_real hwf hi) (fun a => shift_tendsto m u a)] with t ht
    refine grad_partial hwf hπ hinj hc ha (inside_reg (fun c => ?_) hwf (by rwa [Function.update_eq_self])) σ
    by_cases hca : c = π a
    · subst hca; simp only [Function.update_self]; exact tendsto_id
    · simp only [Function.update_of_ne hca]; exact tendsto_const_nhds
  · have h0 : shift m u 0 = m := by funext c; simp [shift]
    have := h.adj a ha fun hB => by
      obtain ⟨k, hk, rfl⟩ := mem_rng_iff.1 hB
      have h1 := hf.2 k (by rwa [map_bindSize] at hk)
      rw [show s.aok (qa + k) = true from adjCells_alive hal _ ha] at h1
      cases h1
    beta_reduce
    rw [h0]
    exact this

/-- **C55, the Hessian.** `hessian_gen` for a scalar expression of `n` variables, which are stored from value cell `p` and adjoint cell `q` on and hold the values `m` and tangents 0, is defined; it returns the gradient, and in column `i`, row `j`,
the derivative by the `i`-th variable of the partial derivative by the `j`-th variable. -/
theorem C55_hessian_partial [LawfulLinAlg] {e : Expr ℝ} {m : ℕ → ℝ} (hwf : e.WF) (hscl : e.shape = .scl) (hi : e.Inside fwdDoms m) {s S : St (Dual ℝ)} {qv qa : ℕ} {jv ja : ℕ → Dual ℝ}
    (hal : e.Alive s.vok s.aok) (hf : Fresh s e.bindSize qv qa)
    (hSv : ∀ a, (bindExpr (e.map Dual.ofVal) qv qa jv ja s).2.vok a = true → S.vok a = true)
    (hSa : ∀ a, (bindExpr (e.map Dual.ofVal) qv qa jv ja s).2.aok a = true → S.aok a = true)
    (hval : ∀ c ∈ e.valCells ∪ e.constCells, S.val c = ⟨m c, 0⟩) {p q n : ℕ} (hp : ∀ k < n, s.vok (p + k) = true) (hq : ∀ k < n, s.aok (q + k) = true)
    {π : ℕ → ℕ} (hπ : e.Paired π) (hinj : Set.InjOn π e.adjCells) (hc : ∀ a ∈ e.adjCells, π a ∉ e.constCells) (hx : ∀ j < n, q + j ∈ e.adjCells → π (q + j) = p + j) :
    ∃ S' out, hessian (bindExpr (e.map Dual.ofVal) qv qa jv ja s).1 p q n S = some (S', out) ∧ out.length = n ∧ ∀ i (h : i < out.length),
      HasDerivAt (fun x => e.denote (Function.update m (p + i) x) 0) (out[i]).1 (m (p + i)) ∧
      (∀ j < n, q + j ∈ e.adjCells → ∃ D : ℝ → ℝ,
        (∀ᶠ x in 𝓝 (m (p + i)), HasDerivAt (fun z => e.denote (Function.update (Function.update m (p + i) x) (p + j) z) 0) (D x) (Function.update m (p + i) x (p + j))) ∧
        HasDerivAt D ((out[i]).2 j) (m (p + i))) ∧
      ∀ j < n, q + j ∉ e.adjCells → (out[i]).2 j = 0 := by
  have hb := (bindExpr_bnd (s := s) (jv := jv) (ja := ja) (map_wf Dual.ofVal hwf) ((map_alive _).2 hal) (by rw [map_bindSize]; exact hf)).mono hSv hSa
  have hblk : ∀ {u : ℕ → Bool} {q n : ℕ}, (∀ k < n, u (q + k) = false) → ∀ a, u a = true → a ∉ rng (some q) n := by
    intro u q n h a ha hb
    obtain ⟨k, hk, rfl⟩ := mem_rng_iff.1 hb
    have := h k hk
    rw [show u (q + k) = true from ha] at this
    cases this
  have hS1 : ∀ k, s.vok k = true → S.vok k = true := fun k hk => hSv k (by simp [bindExpr, St.allocate, hk])
  have hS2 : ∀ k, s.aok k = true → S.aok k = true := fun k hk => hSa k (by simp [bindExpr, St.allocate, hk])
  obtain ⟨S', out, e1, hl, h⟩ := hessLoop_ok (p := p) (q := q) (n := n) hwf hscl hal hf hi (fun k hk => by rw [map_bindSize]; exact hblk hf.2 _ (hq k hk))
    (fun c hc => by rw [map_bindSize]; exact hblk hf.1 c (reads_alive hal c hc)) n 0 S (by omega) hb (fun k hk => hS1 _ (hp k hk)) (fun k hk => hS2 _ (hq k hk))
    (fun c hc => by rw [hval c (Finset.mem_union.2 (reads_cells e c hc))]; simp)
  refine ⟨S', out, e1, hl, fun i hi' => ?_⟩
  have hsz : e.size = 1 := by rw [Expr.size, hscl]; rfl
  have h1 := h i hi'
  rw [zero_add] at h1
  refine ⟨h1.1, fun j hj ha => ⟨_, ?_, h1.2.1 j hj ha⟩, h1.2.2⟩
  have ht : ∀ a, Tendsto (fun x => Function.update m (p + i) x a) (𝓝 (m (p + i))) (𝓝 (m a)) := by
    intro a
    by_cases hca : a = p + i
    · subst hca; simp only [Function.update_self]; exact tendsto_id
    · simp only [Function.update_of_ne hca]; exact tendsto_const_nhds
  filter_upwards [inside_near hwf (inside_fwd_real hwf hi) ht] with x hx'
  have h2 := grad_partial hwf hπ hinj hc ha (m := Function.update m (p + i) x) (inside_reg (fun c => ?_) hwf (by rwa [Function.update_eq_self])) fun _ => 1
  · rw [hx j hj ha, hsz] at h2
    simpa using h2
  · by_cases hca : c = π (q + j)
    · subst hca; simp only [Function.update_self]; exact tendsto_id
    · simp only [Function.update_of_ne hca]; exact tendsto_const_nhds

end

namespace HessianSample

/-- the variable `x[i]` -/
def x {α : Type} (i : ℕ) : Expr α := .var ⟨.scl, some i, some i⟩

/-- `H` of hessian_unittest.cpp:16-18: `sin(x[0]) + x[0]*x[0] + x[1]*x[1] + cos(x[2]*x[3])` -/
def H : Expr ℝ :=
  .mkBinary .add (.mkBinary .add (.mkBinary .add (.mkUnary .sin (x 0)) (.mkBinary .mul (x 0) (x 0))) (.mkBinary .mul (x 1) (x 1))) (.mkUnary .cos (.mkBinary .mul (x 2) (x 3)))

/-- the variables hold 1, 2, 3, 4 (hessian_unittest.cpp:92) and tangents 0 -/
noncomputable def s : St (Dual ℝ) := ⟨fun a => ⟨(a : ℝ) + 1, 0⟩, fun _ => ⟨5, 7⟩, fun a => decide (a < 4), fun a => decide (a < 4)⟩

theorem H_wf : H.WF := by
  simp [H, x, Expr.WF, Expr.mkBinary, Expr.mkUnary, Expr.shape, Expr.view, View.null, Expr.binShape, Shape.ofDims, Shape.maxKind, Shape.scl, Shape.Ok, binDimsOk, sameDims, Shape.isScl, Expr.isIf, BOp.isComparison]

theorem H_alive : H.Alive s.vok s.aok := by
  constructor
  · intro w hw
    simp only [H, x, Expr.mkBinary, Expr.mkUnary, Expr.vars, List.mem_append, List.mem_singleton, or_self] at hw
    rcases hw with ((rfl | rfl) | rfl) | rfl | rfl <;> constructor <;> intro k hk <;>
      simp [View.size, Shape.size, Shape.scl, s] at hk ⊢ <;> omega
  · intro c hc
    simp [H, x, Expr.mkBinary, Expr.mkUnary, Expr.cviews] at hc

theorem H_denote [HasInf ℝ] [LinAlg ℝ] (m : ℕ → ℝ) : H.denote m 0 = Real.sin (m 0) + m 0 * m 0 + m 1 * m 1 + Real.cos (m 2 * m 3) := by
  simp [H, x, Expr.mkBinary, Expr.mkUnary, Expr.denote, BOp.real, UOp.real, addr, Expr.shape, Expr.view, Shape.isScl, Shape.scl, View.null]

/-- the point (1, 2, 3, 4) -/
def m0 (a : ℕ) : ℝ := (a : ℝ) + 1

/-- The Hessian of `H` at (1, 2, 3, 4): column 0, row 0 is `2 - sin 1` (1.15853 in the test), column 2, row 3 is `-sin 12 - 12 cos 12` (-9.58967). -/
example [HasInf ℝ] [LinAlg ℝ] [LawfulLinAlg] [HasInf (Dual ℝ)] [LinAlg (Dual ℝ)] :
    ∃ S' out, hessian (bindExpr (H.map Dual.ofVal) 10 10 0 0 s).1 0 0 4 (bindExpr (H.map Dual.ofVal) 10 10 0 0 s).2 = some (S', out) ∧
      ∃ h : out.length = 4, (out[0]).2 0 = 2 - Real.sin 1 ∧ (out[2]).2 3 = -Real.sin 12 - 12 * Real.cos 12 := by
  have hcell : ∀ c ∈ H.valCells ∪ H.constCells, c < 4 := by decide
  obtain ⟨S', out, h1, h2, h3⟩ := C55_hessian_partial (e := H) (m := m0) H_wf rfl
    (by simp [H, x, Expr.mkBinary, Expr.mkUnary, Expr.Inside, fwdDoms, UOp.DomAt]) (s := s) (qv := 10) (qa := 10) (jv := 0) (ja := 0) H_alive
    (by constructor <;> intro k _ <;> simp [s] <;> omega) (fun a h => h) (fun a h => h)
    (fun c hc => by
      have := hcell c hc
      exact if_neg (by omega))
    (p := 0) (q := 0) (n := 4) (fun k hk => by simpa [s] using hk) (fun k hk => by simpa [s] using hk) (π := id)
    (by
      intro w hw k hk
      simp only [H, x, Expr.mkBinary, Expr.mkUnary, Expr.vars, List.mem_append, List.mem_singleton, or_self] at hw
      rcases hw with ((rfl | rfl) | rfl) | rfl | rfl <;> rfl)
    (Set.injOn_id _) (fun a _ => by simp [H, x, Expr.mkBinary, Expr.mkUnary, Expr.constCells, Expr.cviews]) (fun j _ _ => rfl)
  refine ⟨S', out, h1, h2, ?_, ?_⟩
  · obtain ⟨D, hD, hd⟩ := (h3 0 (by omega)).2.1 0 (by omega) (by decide)
    rw [zero_add] at hD hd
    have h4 : D =ᶠ[𝓝 (m0 0)] fun t => Real.cos t + 2 * t := by
      filter_upwards [hD] with t ht
      have e1 : (fun z => H.denote (Function.update (Function.update m0 0 t) 0 z) 0) = fun z => Real.sin z + z * z + (2 * 2 + Real.cos 12) := by
        funext z; rw [H_denote]; simp [m0]; norm_num; ring
      rw [e1, Function.update_self] at ht
      refine ht.unique ((((Real.hasDerivAt_sin t).fun_add ((hasDerivAt_id t).fun_mul (hasDerivAt_id t))).add_const _).congr_deriv ?_)
      simp; ring
    have h5 := (hd.congr_of_eventuallyEq h4.symm).unique ((Real.hasDerivAt_cos _).fun_add ((hasDerivAt_id _).const_mul 2))
    rw [h5]; simp [m0]; ring
  · obtain ⟨D, hD, hd⟩ := (h3 2 (by omega)).2.1 3 (by omega) (by decide)
    rw [zero_add] at hD hd
    have h4 : D =ᶠ[𝓝 (m0 2)] fun t => -(t * Real.sin (t * 4)) := by
      filter_upwards [hD] with t ht
      have e1 : (fun z => H.denote (Function.update (Function.update m0 2 t) (0 + 3) z) 0) = fun z => Real.cos (t * z) + (Real.sin 1 + 5) := by
        funext z; rw [H_denote]; simp [m0]; norm_num; ring
      have e2 : Function.update m0 2 t (0 + 3) = 4 := by simp [m0]; norm_num
      rw [e1, e2] at ht
      refine ht.unique ((((hasDerivAt_id (4 : ℝ)).const_mul t).cos.add_const _).congr_deriv ?_)
      simp; ring
    have h5 := (hd.congr_of_eventuallyEq h4.symm).unique (((hasDerivAt_id _).fun_mul ((hasDerivAt_id _).mul_const 4).sin).fun_neg)
    have e3 : m0 2 = 3 := by simp [m0]; norm_num
    rw [h5, e3]; norm_num; ring

/-- The direction (0, 0, 1, 0) at (1, 2, 3, 4): the returned tangent is the derivative `-4 sin 12` of `H` by `x[2]`. -/
example [HasInf ℝ] [LinAlg ℝ] [LawfulLinAlg] [HasInf (Dual ℝ)] [LinAlg (Dual ℝ)] (S : St (Dual ℝ)) (h1 : S.vok = (bindExpr (H.map Dual.ofVal) 10 10 0 0 s).2.vok) (h2 : S.aok = (bindExpr (H.map Dual.ofVal) 10 10 0 0 s).2.aok)
    (h3 : ∀ a < 4, S.val a = ⟨m0 a, if a = 2 then 1 else 0⟩) :
    ∃ S' r y, autodiff (bindExpr (H.map Dual.ofVal) 10 10 0 0 s).1 (fun _ => .ofVal 1) S = some (S', r) ∧ r.read S' 1 = some y ∧ (y 0).df = -4 * Real.sin 12 := by
  have hcell : ∀ c ∈ H.valCells ∪ H.constCells, c < 4 := by decide
  obtain ⟨S', r, y, e1, e2, e3, _⟩ := C55_directional_partial (e := H) (m := m0) (u := fun a => if a = 2 then 1 else 0) H_wf
    (by simp [H, x, Expr.mkBinary, Expr.mkUnary, Expr.Inside, fwdDoms, UOp.DomAt]) (s := s) (S := S) (qv := 10) (qa := 10) (jv := 0) (ja := 0) H_alive
    (by constructor <;> intro k _ <;> simp [s] <;> omega) (fun a h => by rw [h1]; exact h) (fun a h => by rw [h2]; exact h)
    (fun c hc => h3 c (hcell c hc)) fun _ => 1
  refine ⟨S', r, y, e1, e2, ?_⟩
  have h4 := (e3 0 (by decide)).2
  have h5 : (fun t => H.denote (shift m0 (fun a => if a = 2 then 1 else 0) t) 0) = fun t => Real.cos ((3 + t) * 4) + (Real.sin 1 + 5) := by
    funext t; rw [H_denote]; simp [shift, m0]; norm_num; ring
  rw [h5] at h4
  refine h4.unique (((((hasDerivAt_id (0 : ℝ)).const_add 3).mul_const 4).cos.add_const _).congr_deriv ?_)
  simp; norm_num; ring

/-- `erf(x[0]) * x[1]` -/
def E {α : Type} : Expr α := .mkBinary .mul (.mkUnary .erf (x 0)) (x 1)

/-- `x[0] = 1` with tangent 0, `x[1] = 2` with tangent 1 -/
noncomputable def t : St (Dual ℝ) := ⟨fun a => ⟨m0 a, a⟩, fun _ => 0, fun a => decide (a < 2), fun a => decide (a < 2)⟩

/-- **C55, the error function.** `erf` has to be excluded: its forward derivative (forward.hpp:136-140) does not contain the tangent.  The partial derivative of `erf(x[0]) * x[1]` by `x[1]` does not depend on `x[1]`, but its tangent
in the direction of `x[1]` is found to be `2/√π exp(-1)`. -/
theorem C55_false_for_erf [HasInf ℝ] [LinAlg ℝ] [HasInf (Dual ℝ)] [LinAlg (Dual ℝ)] :
    ∃ S' r, autodiff (bindExpr E 10 10 0 0 t).1 (fun _ => 1) (bindExpr E 10 10 0 0 t).2 = some (S', r) ∧
      (S'.adj 1).w = realErf 1 ∧ (S'.adj 1).df = 2 / √Real.pi * Real.exp (-1) ∧
      ∀ z, HasDerivAt (fun z => (E (α := ℝ)).denote (Function.update m0 1 z) 0) (realErf 1) z := by
  have hwf : (E (α := Dual ℝ)).WF := by
    simp [E, x, Expr.WF, Expr.mkBinary, Expr.mkUnary, Expr.shape, Expr.view, View.null, Expr.binShape, Shape.ofDims, Shape.maxKind, Shape.scl, Shape.Ok, binDimsOk, sameDims, Shape.isScl, Expr.isIf, BOp.isComparison]
  have hal : (E (α := Dual ℝ)).Alive t.vok t.aok := by
    constructor
    · intro w hw
      simp only [E, x, Expr.mkBinary, Expr.mkUnary, Expr.vars, List.mem_append, List.mem_singleton] at hw
      rcases hw with rfl | rfl <;> constructor <;> intro k hk <;> simp [View.size, Shape.size, Shape.scl, t] at hk ⊢ <;> omega
    · intro c hc
      simp [E, x, Expr.mkBinary, Expr.mkUnary, Expr.cviews] at hc
  have hf : Fresh t (E (α := Dual ℝ)).bindSize 10 10 := by constructor <;> intro k _ <;> simp [t] <;> omega
  obtain ⟨S', r, h⟩ := (bindExpr_bnd (jv := 0) (ja := 0) hwf hal hf).gautodiff (m := t.val) (fun a ha => by
    have : a < 2 := by
      have := reads_alive hal a ha
      simpa [t] using this
    exact if_neg (by omega)) (fun _ => 1)
  have h1 : S'.adj 1 = ⟨realErf 1, 2 / √Real.pi * Real.exp (-1)⟩ := by
    rw [h.adj 1 (fun hb => by obtain ⟨k, _, hk⟩ := mem_rng_iff.1 hb; simp only [addr, Option.getD_some] at hk; omega),
      show (bindExpr E 10 10 0 0 t).2.adj 1 = 0 by simp [bindExpr, St.allocate, fillRange, t]]
    simp [E, x, Expr.mkBinary, Expr.mkUnary, Expr.gback, BOp.isComparison, collapse, bcast, Expr.shape, Expr.view, View.null, Expr.binShape, Shape.ofDims, Shape.maxKind, Shape.isScl, Shape.scl, addr, View.size, Shape.size]
    simp only [BOp.br, Expr.exact, Shape.bidx, UOp.fmap]
    have e1 : t.val 0 = ⟨1, 0⟩ := by simp [t, m0]
    have e2 : (Fn.erf (⟨1, 0⟩ : Dual ℝ)) = ⟨realErf 1, 2 / √Real.pi * Real.exp (-1)⟩ := by
      show FUn.erf.map _ = _
      simp [FUn.map, Fn.erf, Fn.twoOverSqrtPi, Fn.exp]
    simp [addr, e1, e2, Shape.isScl]
    show FBin.add.map (.ofVal 0) (FBin.mul.map (.ofVal 1) _) = _
    simp [FBin.map, Dual.ofVal]
  exact ⟨S', r, h.run, by rw [h1], by rw [h1], fun z => by
    have e1 : (fun z => (E (α := ℝ)).denote (Function.update m0 1 z) 0) = fun z => realErf 1 * z := by
      funext z
      simp [E, x, Expr.mkBinary, Expr.mkUnary, Expr.denote, BOp.real, UOp.real, addr, Expr.shape, Expr.view, Shape.isScl, Shape.scl, View.null, m0]
    rw [e1]
    simpa using (hasDerivAt_id z).const_mul (realErf 1)⟩

end HessianSample

end FastAD
