import Verif.Spec.ReadmeNet
import Verif.Proof.DataGrad

/-!
# The network of the README: helper lemmas
-/

namespace FastAD
set_option linter.unusedSimpArgs false

namespace ReadmeNet

variable {parm grad xb yb : ℕ}

theorem bindSize : (residual (α := ℝ) parm grad xb yb).bindSize = ⟨31, 31⟩ := by
  simp [residual, y3, y2, y1, x1, Expr.mkPow, Expr.mkBinary, Expr.mkUnary, Expr.mkDot, Expr.bindSize, Expr.single, Expr.shape, Expr.view, View.null, Shape.mat, Shape.ofDims, A1, b1, A2, b2, A3, b3,
    Expr.binShape, Shape.maxKind, Shape.isScl, Shape.size, View.size, BOp.isComparison]
  rfl

theorem wf : (residual (α := ℝ) parm grad xb yb).WF := by
  simp [residual, y3, y2, y1, x1, Expr.mkPow, Expr.mkBinary, Expr.mkUnary, Expr.mkDot, Expr.WF, Expr.shape, Expr.view, View.null, Shape.mat, Shape.Ok, Shape.ofDims, A1, b1, A2, b2, A3, b3,
    Expr.isIf, sameDims, Expr.binShape, Shape.maxKind, Shape.isScl, binDimsOk]

theorem program : (residual (α := ℝ) parm grad xb yb).Program := by
  refine ⟨⟨wf, rfl, trivial⟩, ?_, ?_⟩ <;> simp [residual, Expr.mkPow, Expr.flat]

theorem flat : (residual (α := ℝ) parm grad xb yb).flat = [residual parm grad xb yb] := rfl

theorem vars (u : View) (hu : u ∈ (residual (α := ℝ) parm grad xb yb).vars) :
    u = A1 parm grad ∨ u = b1 parm grad ∨ u = A2 parm grad ∨ u = b2 parm grad ∨ u = A3 parm grad ∨ u = b3 parm grad := by
  simp only [residual, y3, y2, y1, x1, Expr.mkPow, Expr.mkBinary, Expr.mkUnary, Expr.mkDot, Expr.vars, List.nil_append, List.append_nil, List.mem_append, List.mem_cons,
      List.not_mem_nil, or_false] at hu
  tauto

theorem cviews (c : Shape × Option ℕ) (hc : c ∈ (residual (α := ℝ) parm grad xb yb).cviews) : c = (.mat 1 1, some yb) ∨ c = (.mat 2 1, some xb) := by
  simp only [residual, y3, y2, y1, x1, Expr.mkPow, Expr.mkBinary, Expr.mkUnary, Expr.mkDot, Expr.cviews, List.nil_append, List.append_nil, List.mem_append, List.mem_cons,
      List.not_mem_nil, or_false] at hc
  tauto

theorem inBlock (u : View) (hu : u ∈ (residual (α := ℝ) parm grad xb yb).vars) : u.InBlock parm grad 25 := by
  intro k hk
  rcases vars u hu with rfl | rfl | rfl | rfl | rfl | rfl <;> simp [A1, b1, A2, b2, A3, b3, View.size, Shape.size, Shape.mat, addr] at hk ⊢
  · omega
  · exact ⟨6 + k, by omega, by omega, by omega⟩
  · exact ⟨9 + k, by omega, by omega, by omega⟩
  · exact ⟨18 + k, by omega, by omega, by omega⟩
  · exact ⟨21 + k, by omega, by omega, by omega⟩
  · exact ⟨24, by omega, by omega, by omega⟩

theorem constCells (c : ℕ) (hc : c ∈ (residual (α := ℝ) parm grad xb yb).constCells) : c = xb ∨ c = xb + 1 ∨ c = yb := by
  obtain ⟨w, hw, h1⟩ := mem_constCells.1 hc
  obtain ⟨k, hk, rfl⟩ := mem_rng_iff.1 h1
  rcases cviews w hw with rfl | rfl <;> simp [Shape.size, Shape.mat, addr] at hk ⊢ <;> omega

theorem params (hx : ∀ k < 2, ¬ (parm ≤ xb + k ∧ xb + k < parm + 25)) (hy : ¬ (parm ≤ yb ∧ yb < parm + 25)) :
    (residual (α := ℝ) parm grad xb yb).Params parm grad 25 0 0 0 := by
  refine ⟨fun u hu => Or.inl (inBlock u hu), fun x hx u hu => ?_, fun c hc => ⟨?_, ?_⟩, fun _ _ _ h => absurd h (by omega), fun _ _ _ h => absurd h (by omega)⟩
  · rw [flat, List.mem_singleton] at hx
    subst hx
    cases hu
  · rcases constCells c hc with rfl | rfl | rfl
    · exact hx 0 (by omega)
    · exact hx 1 (by omega)
    · exact hy
  · simp [Expr.targetCells, residual, Expr.mkPow, Expr.flat, Expr.target]

theorem targetAdj : (residual (α := ℝ) parm grad xb yb).targetAdj = ∅ := by
  simp [Expr.targetAdj, residual, Expr.mkPow, Expr.flat, Expr.target]

theorem placeCells : (residual (α := ℝ) parm grad xb yb).placeCells = ∅ := by
  simp [Expr.placeCells, residual, Expr.mkPow, Expr.flat, Expr.placeholder]

theorem stable : (residual (α := ℝ) parm grad xb yb).Stable := by
  right
  intro x hx
  rw [flat] at hx
  cases hx
  trivial

variable [HasInf ℝ] [LinAlg ℝ]

theorem reg {E : Type} [NormedAddCommGroup E] [NormedSpace ℝ E] (ρ : E → ℕ → ℝ) (x0 : E) : RegSeq (residual parm grad xb yb).flat ρ x0 := by
  rw [flat]
  simp [RegSeq, Expr.RegStmt, residual, y3, y2, y1, x1, Expr.mkPow, Expr.mkBinary, Expr.mkUnary, Expr.mkDot, Expr.Reg, BOp.isComparison, UOp.DomAt]

/-- first layer -/
theorem x1_denote (m : ℕ → ℝ) (k : Fin 3) :
    (x1 parm grad xb).denote m k = (Matrix.mulVec (W1 fun i => m (parm + i)) ![m xb, m (xb + 1)] + c1 fun i => m (parm + i)) k := by
  fin_cases k <;>
    simp [x1, Expr.mkBinary, Expr.mkDot, Expr.denote, A1, b1, addr, Shape.mat, BOp.real, Expr.shape, Expr.view, View.null, Shape.ofDims, Shape.isScl, Expr.binShape, Shape.maxKind,
      Finset.sum_range_succ, W1, c1, Matrix.mulVec, dotProduct, Nat.add_assoc] <;>
    ring

theorem y1_denote (m : ℕ → ℝ) (k : Fin 3) :
    (y1 parm grad xb).denote m k = sigma (Matrix.mulVec (W1 fun i => m (parm + i)) ![m xb, m (xb + 1)] + c1 fun i => m (parm + i)) k := by
  rw [sigma, ← x1_denote (grad := grad)]
  rfl

theorem y2_denote (m : ℕ → ℝ) (k : Fin 3) :
    (y2 parm grad xb).denote m k = (sigma (Matrix.mulVec (W2 fun i => m (parm + i)) (sigma (Matrix.mulVec (W1 fun i => m (parm + i)) ![m xb, m (xb + 1)] + c1 fun i => m (parm + i))) +
      c2 fun i => m (parm + i)) + (Matrix.mulVec (W1 fun i => m (parm + i)) ![m xb, m (xb + 1)] + c1 fun i => m (parm + i))) k := by
  have h0 := y1_denote (grad := grad) (parm := parm) (xb := xb) m 0
  have h1 := y1_denote (grad := grad) (parm := parm) (xb := xb) m 1
  have h2 := y1_denote (grad := grad) (parm := parm) (xb := xb) m 2
  have e : (y2 parm grad xb).denote m k = (1 + Real.exp (-(m (parm + 9 + k) * (y1 parm grad xb).denote m 0 + m (parm + 9 + (k + 3)) * (y1 parm grad xb).denote m 1 +
      m (parm + 9 + (k + 6)) * (y1 parm grad xb).denote m 2 + m (parm + 18 + k))))⁻¹ + (x1 parm grad xb).denote m k := by
    fin_cases k <;>
    simp [y2, Expr.mkBinary, Expr.mkUnary, Expr.mkDot, Expr.denote, A2, b2, addr, Shape.mat, BOp.real, UOp.real, Expr.shape, Expr.view, View.null, Shape.ofDims, Shape.isScl,
      Expr.binShape, Shape.maxKind, Finset.sum_range_succ, y1, x1, A1, b1, -neg_add_rev]
  rw [e, x1_denote]
  generalize Matrix.mulVec (W1 fun i => m (parm + i)) ![m xb, m (xb + 1)] + (c1 fun i => m (parm + i)) = H at *
  simp only [Fin.val_zero, Fin.val_one, Fin.val_two] at h0 h1 h2
  rw [h0, h1, h2, Pi.add_apply, sigma]
  congr 3
  fin_cases k <;> simp [sigma, W2, c2, Matrix.mulVec, dotProduct, Fin.sum_univ_three, Nat.add_assoc]

theorem y3_denote (m : ℕ → ℝ) : (y3 parm grad xb).denote m 0 = predict (fun i => m (parm + i)) ![m xb, m (xb + 1)] := by
  have h0 := y2_denote (grad := grad) (parm := parm) (xb := xb) m 0
  have h1 := y2_denote (grad := grad) (parm := parm) (xb := xb) m 1
  have h2 := y2_denote (grad := grad) (parm := parm) (xb := xb) m 2
  simp only [Fin.val_zero, Fin.val_one, Fin.val_two] at h0 h1 h2
  have e : (y3 parm grad xb).denote m 0 = m (parm + 21) * (y2 parm grad xb).denote m 0 + m (parm + 21 + 1) * (y2 parm grad xb).denote m 1 +
      m (parm + 21 + 2) * (y2 parm grad xb).denote m 2 + m (parm + 24) := by
    simp [y3, Expr.mkBinary, Expr.mkDot, Expr.denote, A3, b3, addr, Shape.mat, BOp.real, Expr.shape, Expr.view, View.null, Shape.ofDims, Shape.isScl,
      Expr.binShape, Shape.maxKind, Finset.sum_range_succ, y2, Expr.mkUnary, x1, A1, b1]
  rw [e, h0, h1, h2]
  simp only [predict]
  generalize (sigma _ + _ : Fin 3 → ℝ) = H
  simp [W3, c3, dotProduct, Fin.sum_univ_three]

theorem result (m : ℕ → ℝ) : (residual parm grad xb yb).result m 0 = (m yb - predict (fun i => m (parm + i)) ![m xb, m (xb + 1)]) ^ 2 := by
  rw [← y3_denote (grad := grad)]
  simp [residual, Expr.mkPow, Expr.mkBinary, Expr.result, Expr.denote, BOp.real, realPow, addr, Expr.shape, Expr.view, View.null, Shape.mat, Shape.ofDims, Shape.isScl,
    Expr.binShape, Shape.maxKind, y3]

theorem squares_total (m : ℕ → ℝ) (hx : ∀ k < 2, ¬ (parm ≤ xb + k ∧ xb + k < parm + 25)) (hy : ¬ (parm ≤ yb ∧ yb < parm + 25)) (hxy : ∀ k < 2, xb + k ≠ yb)
    (data : List (ℝ × ℝ × ℝ)) :
    total (fun m' => (residual parm grad xb yb).result m' 0) m (data.map (row xb yb)) = squares (fun i => m (parm + i)) data := by
  induction data generalizing m with
  | nil => rfl
  | cons d data ih =>
    have h1 : ∀ i : Fin 25, overlay m (row xb yb d) (parm + i) = m (parm + i) := fun i => overlay_apply_of_notMem fun w hw => by
      simp only [row, List.mem_cons, List.not_mem_nil, or_false] at hw
      have := hx 0 (by omega)
      have := hx 1 (by omega)
      rcases hw with rfl | rfl | rfl <;> simp only <;> omega
    have := ih (overlay m (row xb yb d))
    simp only [total, List.map_cons, rowStores, List.sum_cons, squares, result, h1] at this ⊢
    rw [this]
    congr 1
    have e0 : overlay m (row xb yb d) xb = d.1 := by
      have := hxy 0 (by omega)
      have h : xb ≠ yb := by omega
      simp [overlay, row, Function.update_apply, h]
    have e1 : overlay m (row xb yb d) (xb + 1) = d.2.1 := by
      simp [overlay, row, Function.update_apply, hxy 1 (by omega)]
    have e2 : overlay m (row xb yb d) yb = d.2.2 := by simp [overlay, row]
    rw [e0, e1, e2]

/-- what one call of `NN::loss` does -/
theorem loss_spec [LawfulLinAlg] {data : List (ℝ × ℝ × ℝ)} (hd : data ≠ []) {L : Alloc ℝ} {s : St ℝ} (hf : L.Fresh s)
    (hpv : ∀ i < 25, s.vok (parm + i) = true) (hpa : ∀ i < 25, s.aok (grad + i) = true) :
    ∃ s', loss parm grad data L s = some (s', squares (fun i => s.val (parm + i)) data) ∧ s'.vok = s.vok ∧ s'.aok = s.aok ∧
      (∀ c, s.vok c = true → s'.val c = s.val c) ∧ (∀ a, s.aok a = true → ¬ (grad ≤ a ∧ a < grad + 25) → s'.adj a = s.adj a) ∧
      HasFDerivAt (fun θ : Fin 25 → ℝ => squares θ data)
        (∑ i : Fin 25, s'.adj (grad + i) • ContinuousLinearMap.proj (R := ℝ) (φ := fun _ : Fin 25 => ℝ) i) fun i => s.val (parm + i) := by
  obtain ⟨d, ds, rfl⟩ : ∃ d ds, data = d :: ds := by
    cases data with
    | nil => exact absurd rfl hd
    | cons d ds => exact ⟨d, ds, rfl⟩
  have hx : ∀ k < 2, ¬ (parm ≤ L.xb + k ∧ L.xb + k < parm + 25) := by
    intro k hk hc
    have h1 := hpv (L.xb + k - parm) (by omega)
    rw [show parm + (L.xb + k - parm) = L.xb + k by omega, hf.xb k hk] at h1
    cases h1
  have hy : ¬ (parm ≤ L.yb ∧ L.yb < parm + 25) := by
    intro hc
    have h1 := hpv (L.yb - parm) (by omega)
    rw [show parm + (L.yb - parm) = L.yb by omega, hf.yb] at h1
    cases h1
  have hacc : accessible s.aok (some grad) 25 := fun k hk => hpa k hk
  -- the state after `bind`
  let sa : St ℝ := { s with adj := fillRange s.adj grad 25 fun _ => 0 }
  let sb := (sa.allocate ⟨2, 0⟩ L.xb 0 (fun k => if k = 0 then d.1 else d.2.1) fun _ => 0).allocate ⟨1, 0⟩ L.yb 0 (fun _ => d.2.2) fun _ => 0
  let s1 := sb.allocate ⟨31, 31⟩ L.qv L.qa L.jv L.ja
  let UV : Set ℕ := {c | s.vok c = true ∨ c = L.xb ∨ c = L.xb + 1 ∨ c = L.yb}
  let UA : Set ℕ := {a | s.aok a = true}
  have hvok : ∀ c, s1.vok c = true ↔ s.vok c = true ∨ (L.xb ≤ c ∧ c < L.xb + 2) ∨ (L.yb ≤ c ∧ c < L.yb + 1) ∨ (L.qv ≤ c ∧ c < L.qv + 31) := by
    intro c; simp [s1, sb, sa, St.allocate, or_assoc]
  have haok : ∀ c, s1.aok c = true ↔ s.aok c = true ∨ (L.qa ≤ c ∧ c < L.qa + 31) := by
    intro c; simp [s1, sb, sa, St.allocate]
  have hwi : (residual (α := ℝ) parm grad L.xb L.yb).Within UV UA s1.vok s1.aok := by
    refine ⟨⟨fun u hu => ⟨?_, ?_⟩, fun c hc => ?_⟩, fun c hc => ?_, fun a ha => ?_⟩
    · rcases vars u hu with rfl | rfl | rfl | rfl | rfl | rfl <;> exact fun k hk => by
        obtain ⟨o, ho, h1, -⟩ := inBlock _ hu k hk
        simp only [A1, b1, A2, b2, A3, b3, addr_some] at h1 ⊢
        rw [h1]
        exact (hvok _).2 (Or.inl (hpv o ho))
    · rcases vars u hu with rfl | rfl | rfl | rfl | rfl | rfl <;> exact fun k hk => by
        obtain ⟨o, ho, -, h1⟩ := inBlock _ hu k hk
        simp only [A1, b1, A2, b2, A3, b3, addr_some] at h1 ⊢
        rw [h1]
        exact (haok _).2 (Or.inl (hpa o ho))
    · rcases cviews c hc with rfl | rfl
      · intro k hk
        have hk : k < 1 := hk
        exact (hvok _).2 (Or.inr (Or.inr (Or.inl ⟨by omega, by omega⟩)))
      · intro k hk
        have hk : k < 2 := hk
        exact (hvok _).2 (Or.inr (Or.inl ⟨by omega, by omega⟩))
    · rcases Finset.mem_union.1 hc with hc | hc
      · obtain ⟨u, hu, hc⟩ := mem_valCells.1 hc
        obtain ⟨k, hk, rfl⟩ := mem_rng_iff.1 hc
        obtain ⟨o, ho, h1, -⟩ := inBlock u hu k hk
        rw [h1]
        exact Or.inl (hpv o ho)
      · exact Or.inr (constCells c hc)
    · obtain ⟨u, hu, hc⟩ := mem_adjCells.1 ha
      obtain ⟨k, hk, rfl⟩ := mem_rng_iff.1 hc
      obtain ⟨o, ho, -, h1⟩ := inBlock u hu k hk
      rw [h1]
      exact hpa o ho
  have hro : (residual (α := ℝ) parm grad L.xb L.yb).Room ⟨vecData L.qv 31, vecData L.qa 31⟩ UV UA s1.vok s1.aok := by
    refine ⟨?_, ?_, ?_, ?_⟩ <;> rw [bindSize]
    · exact fun k hk => (hvok _).2 (Or.inr (Or.inr (Or.inr ⟨by omega, by simpa using hk⟩)))
    · exact fun k hk => (haok _).2 (Or.inr ⟨by omega, by simpa using hk⟩)
    · rintro k hk (hc | hc | hc | hc)
      · have h1 : s.vok (L.qv + k) = true := hc
        rw [(hf.qv k hk).1] at h1; cases h1
      · exact (hf.qv k hk).2.2.1 hc
      · exact (hf.qv k hk).2.2.2 hc
      · exact (hf.qv k hk).2.1 hc
    · intro k hk hc
      have h1 : s.aok (L.qa + k) = true := hc
      rw [hf.qa k hk] at h1; cases h1
  have hrow : ∀ r ∈ (d :: ds).map (row L.xb L.yb), ∀ w ∈ r, w.1 = L.xb ∨ w.1 = L.xb + 1 ∨ w.1 = L.yb := by
    intro r hr w hw
    obtain ⟨e, -, rfl⟩ := List.mem_map.1 hr
    simp only [row, List.mem_cons, List.not_mem_nil, or_false] at hw
    rcases hw with rfl | rfl | rfl <;> simp
  have hx0 := hx 0 (by omega)
  have hx1 := hx 1 (by omega)
  have hsize : (residual (α := ℝ) parm grad L.xb L.yb).size = 1 := by
    simp [residual, y3, y2, y1, x1, Expr.mkPow, Expr.mkBinary, Expr.mkUnary, Expr.mkDot, Expr.size, Expr.shape, Expr.view, View.null, Shape.size, Shape.mat, Expr.binShape, Shape.ofDims, Shape.maxKind, A3, b3, A1, b1, A2, b2]
  obtain ⟨s', hrun, hok⟩ := dataLoop_params (s1 := s1) (m := s1.val) program hwi hro (params hx hy) (fun i hi => Or.inl (hpv i hi)) (fun i hi => hpa i hi) stable
    (by rw [hsize]; omega) (fun _ => 1) (resets := []) (by simp) (by rw [targetAdj]; simp) (by simp) ((d :: ds).map (row L.xb L.yb)) 0 rfl rfl
    (fun r hr w hw => by
      rcases hrow r hr w hw with h | h | h <;> rw [h]
      · exact ⟨(hvok _).2 (Or.inr (Or.inl ⟨by omega, by omega⟩)), by omega⟩
      · exact ⟨(hvok _).2 (Or.inr (Or.inl ⟨by omega, by omega⟩)), by omega⟩
      · exact ⟨(hvok _).2 (Or.inr (Or.inr (Or.inl ⟨by omega, by omega⟩))), by omega⟩)
    (fun _ _ _ => rfl) fun m' _ => reg _ _
  have hval : ∀ c, s.vok c = true → s1.val c = s.val c := by
    intro c hc
    have n1 : ¬ (L.qv ≤ c ∧ c < L.qv + 31) := fun h => by
      have := (hf.qv (c - L.qv) (by omega)).1
      rw [show L.qv + (c - L.qv) = c by omega, hc] at this; cases this
    have n2 : ¬ (L.yb ≤ c ∧ c < L.yb + 1) := fun h => by
      have := hf.yb
      rw [show L.yb = c by omega, hc] at this; cases this
    have n3 : ¬ (L.xb ≤ c ∧ c < L.xb + 2) := fun h => by
      have := hf.xb (c - L.xb) (by omega)
      rw [show L.xb + (c - L.xb) = c by omega, hc] at this; cases this
    simp only [s1, sb, sa, St.allocate, fillRange]
    rw [if_neg n1, if_neg n2, if_neg n3]
  have hadj : ∀ a, s.aok a = true → s1.adj a = if grad ≤ a ∧ a < grad + 25 then 0 else s.adj a := by
    intro a ha
    have n1 : ¬ (L.qa ≤ a ∧ a < L.qa + 31) := fun h => by
      have := hf.qa (a - L.qa) (by omega)
      rw [show L.qa + (a - L.qa) = a by omega, ha] at this; cases this
    simp only [s1, sb, sa, St.allocate, fillRange]
    rw [if_neg n1, if_neg (by omega), if_neg (by omega)]
  have hθ : (fun i : Fin 25 => s1.val (parm + i)) = fun i : Fin 25 => s.val (parm + i) := funext fun i => hval _ (hpv i i.2)
  rw [squares_total _ hx hy hf.xy, hθ, zero_add] at hrun
  refine ⟨((s'.release ⟨31, 31⟩ L.qv L.qa).release ⟨1, 0⟩ L.yb 0).release ⟨2, 0⟩ L.xb 0, ?_, ?_, ?_, ?_, ?_, ?_⟩
  · have hrun' : dataLoop ((residual parm grad L.xb L.yb).bind ⟨vecData L.qv 31, vecData L.qa 31⟩).1 (fun _ => 1) [] ((d :: ds).map (row L.xb L.yb)) 0
      (((St.allocate { s with adj := fillRange s.adj grad 25 fun _ => 0 } ⟨2, 0⟩ L.xb 0 (fun k => if k = 0 then d.1 else d.2.1) fun _ => 0).allocate
        ⟨1, 0⟩ L.yb 0 (fun _ => d.2.2) fun _ => 0).allocate ⟨31, 31⟩ L.qv L.qa L.jv L.ja) = _ := hrun
    simp only [loss, writeA_eq hacc, Option.bind_eq_bind, Option.bind_some, bindExpr, bindSize, addr_some, hrun']
  · funext c
    have hc := hvok c
    rw [Bool.eq_iff_iff]
    simp only [St.release, hok.vok, Bool.and_eq_true, Bool.not_eq_true', Bool.and_eq_false_iff, decide_eq_false_iff_not, hc]
    constructor
    · rintro ⟨⟨⟨h1 | h1 | h1 | h1, h2⟩, h3⟩, h4⟩
      · exact h1
      · omega
      · omega
      · omega
    · intro h1
      have n1 : ¬ (L.qv ≤ c ∧ c < L.qv + 31) := fun h => by
        have := (hf.qv (c - L.qv) (by omega)).1
        rw [show L.qv + (c - L.qv) = c by omega, h1] at this; cases this
      have n2 : ¬ (L.yb ≤ c ∧ c < L.yb + 1) := fun h => by
        have := hf.yb
        rw [show L.yb = c by omega, h1] at this; cases this
      have n3 : ¬ (L.xb ≤ c ∧ c < L.xb + 2) := fun h => by
        have := hf.xb (c - L.xb) (by omega)
        rw [show L.xb + (c - L.xb) = c by omega, h1] at this; cases this
      exact ⟨⟨⟨Or.inl h1, by omega⟩, by omega⟩, by omega⟩
  · funext a
    have ha := haok a
    rw [Bool.eq_iff_iff]
    simp only [St.release, hok.aok, Bool.and_eq_true, Bool.not_eq_true', Bool.and_eq_false_iff, decide_eq_false_iff_not, ha]
    constructor
    · rintro ⟨⟨⟨h1 | h1, h2⟩, h3⟩, h4⟩
      · exact h1
      · omega
    · intro h1
      have n1 : ¬ (L.qa ≤ a ∧ a < L.qa + 31) := fun h => by
        have := hf.qa (a - L.qa) (by omega)
        rw [show L.qa + (a - L.qa) = a by omega, h1] at this; cases this
      exact ⟨⟨⟨Or.inl h1, by omega⟩, by omega⟩, by omega⟩
  · intro c hc
    show s'.val c = s.val c
    have n : ∀ b, s.vok b = false → b ≠ c := by
      rintro b hb rfl
      rw [hb] at hc; cases hc
    rw [hok.val c (Or.inl hc) (by rw [placeCells]; simp), foldl_overlay fun r hr w hw => ?_, hval c hc]
    rcases hrow r hr w hw with h | h | h <;> rw [h]
    · exact n _ (hf.xb 0 (by omega))
    · exact n _ (hf.xb 1 (by omega))
    · exact n _ hf.yb
  · intro a ha hna
    show s'.adj a = s.adj a
    rw [hok.adj a ha (fun hc => ?_) (by simp), hadj a ha, if_neg hna]
    obtain ⟨u, hu, hc⟩ := mem_adjCells.1 hc
    obtain ⟨k, hk, rfl⟩ := mem_rng_iff.1 hc
    obtain ⟨o, ho, -, h1⟩ := inBlock u hu k hk
    omega
  · have hg := hok.grad
    rw [hθ] at hg
    refine (hg.congr_of_eventuallyEq (.of_forall fun θ => ?_)).congr_fderiv (Finset.sum_congr rfl fun i _ => ?_)
    · have e : (fun i : Fin 25 => withParams s1.val parm θ (parm + i)) = θ := funext fun i => withParams_in θ i
      simp only [hsize, Finset.sum_range_one, one_mul]
      rw [squares_total _ hx hy hf.xy, e]
    · rw [hadj _ (hpa i i.2), if_pos ⟨by omega, by omega⟩, sub_zero]
      rfl

/-- the coefficients of the gradient -/
theorem gradient_of_fderiv {data : List (ℝ × ℝ × ℝ)} {θ : Fin 25 → ℝ} {g : ℕ → ℝ}
    (h : HasFDerivAt (fun θ : Fin 25 → ℝ => squares θ data) (∑ i : Fin 25, g i • ContinuousLinearMap.proj (R := ℝ) (φ := fun _ : Fin 25 => ℝ) i) θ) :
    trunc 25 g = gradient θ data := by
  funext i
  by_cases hi : i < 25
  · rw [trunc_of_lt hi, gradient, dif_pos hi, h.fderiv]
    simp [_root_.sum_apply, Pi.single_apply]
  · rw [gradient, dif_neg hi, trunc, if_neg hi]

/-- what the optimiser does -/
theorem optimise_spec [LawfulLinAlg] {data : List (ℝ × ℝ × ℝ)} (hd : data ≠ []) (next : List ((ℕ → ℝ) × ℝ × (ℕ → ℝ)) → ℕ → ℝ) (Ls : List (Alloc ℝ)) :
    ∀ {s : St ℝ} (h : List ((ℕ → ℝ) × ℝ × (ℕ → ℝ))), (∀ L ∈ Ls, L.Fresh s) → (∀ i < 25, s.vok (parm + i) = true) → (∀ i < 25, s.aok (grad + i) = true) →
      ∃ s', optimise parm grad data next Ls h s = some (s', history data next Ls.length h) := by
  induction Ls with
  | nil => intro s h _ _ _; exact ⟨s, rfl⟩
  | cons L Ls ih =>
    intro s h hf hpv hpa
    have hacc : accessible s.vok (some parm) 25 := fun k hk => hpv k hk
    let sa : St ℝ := { s with val := fillRange s.val parm 25 (next h) }
    have hfr : ∀ K ∈ L :: Ls, K.Fresh sa := fun K hK => ⟨(hf K hK).xb, (hf K hK).yb, (hf K hK).xy, (hf K hK).qv, (hf K hK).qa⟩
    obtain ⟨s1, h1, h2, h3, -, -, h4⟩ := loss_spec (parm := parm) (grad := grad) hd (s := sa) (hfr L (by simp)) hpv hpa
    have hθ : (fun i : Fin 25 => sa.val (parm + i)) = vec25 (next h) := by
      funext i
      simp [sa, fillRange, vec25]
    rw [hθ] at h1 h4
    have hfr' : ∀ L ∈ Ls, L.Fresh s1 := fun L hL => by
      obtain ⟨f1, f2, f3, f4, f5⟩ := hfr L (by simp [hL])
      exact ⟨by rw [h2]; exact f1, by rw [h2]; exact f2, f3, by rw [h2]; exact f4, by rw [h3]; exact f5⟩
    obtain ⟨s', h5⟩ := ih (s := s1) ((trunc 25 (next h), squares (vec25 (next h)) data, gradient (vec25 (next h)) data) :: h) hfr'
      (by rw [h2]; exact hpv) (by rw [h3]; exact hpa)
    refine ⟨s', ?_⟩
    have hacc' : accessible s1.aok (some grad) 25 := fun k hk => by rw [h3]; exact hpa k hk
    have e : s1.readA (some grad) 25 = some (gradient (vec25 (next h)) data) := by
      rw [St.readA, readCells, if_pos hacc']
      exact congrArg some (gradient_of_fderiv (g := fun i => s1.adj (grad + i)) h4)
    have h1' : loss parm grad data L { s with val := fillRange s.val parm 25 (next h) } = _ := h1
    simp only [optimise, writeV_eq hacc, Option.bind_eq_bind, Option.bind_some, addr_some, h1', e, h5, List.length_cons, history]

end ReadmeNet

end FastAD
