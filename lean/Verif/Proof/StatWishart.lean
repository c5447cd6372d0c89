import Verif.Proof.StatMat

/-!
# Log-density nodes: Wishart
-/

open scoped Real Topology

namespace FastAD

noncomputable section

set_option linter.unusedSectionVars false

section
variable {E : Type} [NormedAddCommGroup E] [NormedSpace ℝ E] {n : ℕ}

theorem hasFDerivAt_trace {A X : E → Matrix (Fin n) (Fin n) ℝ} {A' X' : Fin n → Fin n → E →L[ℝ] ℝ} {t0 : E}
    (hA : ∀ i j, HasFDerivAt (fun t => A t i j) (A' i j) t0) (hX : ∀ i j, HasFDerivAt (fun t => X t i j) (X' i j) t0) (hdet : (A t0).det ≠ 0) :
    HasFDerivAt (fun t => ((A t)⁻¹ * X t).trace)
      ((∑ i, ∑ j, (A t0)⁻¹ j i • X' i j) - ∑ k, ∑ l, ((A t0)⁻¹ * X t0 * (A t0)⁻¹) l k • A' k l) t0 := by
  have h1 : HasFDerivAt (fun t => ∑ j, ∑ i, (A t)⁻¹ j i * X t i j) _ t0 :=
    HasFDerivAt.fun_sum fun j _ => HasFDerivAt.fun_sum fun i _ => (hasFDerivAt_matInv hA hdet j i).mul (hX i j)
  refine (h1.congr_fderiv ?_).congr_of_eventuallyEq (.of_forall fun t => by simp [Matrix.trace, Matrix.mul_apply])
  ext u
  let B := (A t0)⁻¹
  simp only [_root_.sum_apply, _root_.smul_apply, _root_.add_apply, _root_.sub_apply, _root_.neg_apply, smul_eq_mul]
  show ∑ j, ∑ i, (B j i * (X' i j) u + X t0 i j * -∑ k, ∑ l, B j k * B l i * (A' k l) u) =
    ∑ i, ∑ j, B j i * (X' i j) u - ∑ k, ∑ l, (B * X t0 * B) l k * (A' k l) u
  have e : ∀ k l, (B * X t0 * B) l k * (A' k l) u = ∑ j, ∑ i, X t0 i j * (B j k * B l i * (A' k l) u) := by
    intro k l
    simp only [Matrix.mul_apply, Finset.sum_mul]
    exact Finset.sum_congr rfl fun j _ => Finset.sum_congr rfl fun i _ => by ring
  simp only [e, mul_neg, Finset.mul_sum, ← sub_eq_add_neg, Finset.sum_sub_distrib]
  refine congrArg₂ (· - ·) Finset.sum_comm ?_
  · calc ∑ j, ∑ i, ∑ k, ∑ l, X t0 i j * (B j k * B l i * (A' k l) u)
        = ∑ j, ∑ k, ∑ i, ∑ l, X t0 i j * (B j k * B l i * (A' k l) u) := Finset.sum_congr rfl fun i _ => Finset.sum_comm
      _ = ∑ k, ∑ j, ∑ i, ∑ l, X t0 i j * (B j k * B l i * (A' k l) u) := Finset.sum_comm
      _ = ∑ k, ∑ j, ∑ l, ∑ i, X t0 i j * (B j k * B l i * (A' k l) u) := Finset.sum_congr rfl fun k _ => Finset.sum_congr rfl fun i _ => Finset.sum_comm
      _ = ∑ k, ∑ l, ∑ j, ∑ i, X t0 i j * (B j k * B l i * (A' k l) u) := Finset.sum_congr rfl fun k _ => Finset.sum_comm

end

variable [HasInf ℝ] [LinAlg ℝ]

theorem wishartLog_eq {p : ℕ} {v : Args ℝ} (h : WishartOk p v) :
    wishartLog p v = (v.b 0 - p - 1) / 2 * Real.log (toMat p v.x).det - 1 / 2 * ((toMat p v.a)⁻¹ * toMat p v.x).trace - v.b 0 / 2 * Real.log (toMat p v.a).det := by
  have hx := h.1.det_pos
  have hv := h.2.1.det_pos
  rw [wishartLog, wishartKernel, Real.log_div (by positivity) (by positivity), Real.log_mul (by positivity) (Real.exp_ne_zero _), Real.log_rpow hx, Real.log_exp,
    Real.log_rpow hv]
  ring

theorem toMat_mul2 (p : ℕ) (l r : ℕ → ℝ) : toMat p (mul2 p l r) = toMat p l * toMat p r := by
  ext i j
  simp only [toMat, mul2, Matrix.mul_apply, Matrix.of_apply, mod_idx i.2, div_idx i.2, sumN_eq, Finset.sum_range]

theorem fin_idx_lt {n : ℕ} (i j : Fin n) : i.1 + j.1 * n < n * n := by have := i.2; have := j.2; nlinarith

theorem wishart_alg {n : ℕ} (c d : ℝ) (XI VI M G H : Fin n → Fin n → ℝ) :
    c / 2 * ∑ i, ∑ j, XI i j * G i j - 1 / 2 * (∑ i, ∑ j, VI i j * G i j - ∑ i, ∑ j, M i j * H i j) - d / 2 * ∑ i, ∑ j, VI i j * H i j =
      ∑ i, ∑ j, 1 / 2 * (c * XI i j - VI i j) * G i j + ∑ i, ∑ j, 1 / 2 * (M i j - d * VI i j) * H i j := by
  have e1 : ∑ i, ∑ j, 1 / 2 * (c * XI i j - VI i j) * G i j = c / 2 * ∑ i, ∑ j, XI i j * G i j - 1 / 2 * ∑ i, ∑ j, VI i j * G i j := by
    simp only [Finset.mul_sum, ← Finset.sum_sub_distrib]
    exact Finset.sum_congr rfl fun i _ => Finset.sum_congr rfl fun j _ => by ring
  have e2 : ∑ i, ∑ j, 1 / 2 * (M i j - d * VI i j) * H i j = 1 / 2 * ∑ i, ∑ j, M i j * H i j - d / 2 * ∑ i, ∑ j, VI i j * H i j := by
    simp only [Finset.mul_sum, ← Finset.sum_sub_distrib]
    exact Finset.sum_congr rfl fun i _ => Finset.sum_congr rfl fun j _ => by ring
  rw [e1, e2]
  ring

theorem inv_symm {n : ℕ} {A : Matrix (Fin n) (Fin n) ℝ} (h : A.IsSymm) (i j : Fin n) : A⁻¹ j i = A⁻¹ i j := by
  have : A⁻¹.transpose = A⁻¹ := by rw [Matrix.transpose_nonsing_inv, h.eq]
  rw [← Matrix.transpose_apply A⁻¹ i j, this]

theorem wishart_gradient {k : Kinds} {p : ℕ} {v : Args ℝ} {seed : ℝ} {calls : List (Slot × (ℕ → ℝ))} (hk : k.b = .const) (hok : WishartOk p v)
    (hx : ∀ i j : Fin p, seedOf calls .x (i.1 + j.1 * p) = seed * (1 / 2 * ((v.b 0 - p - 1) * (toMat p v.x)⁻¹ i j - (toMat p v.a)⁻¹ i j)))
    (ha : ∀ i j : Fin p, seedOf calls .a (i.1 + j.1 * p) =
      seed * (1 / 2 * (((toMat p v.a)⁻¹ * toMat p v.x * (toMat p v.a)⁻¹) i j - v.b 0 * (toMat p v.a)⁻¹ i j))) :
    SeedGradient k (wdim p) (WishartSymm p) (orNegInf (WishartOk p) (wishartLog p)) v seed calls := by
  intro E _ _ V D t0 h0 hA hD hc
  subst h0
  have hXd : ∀ i j : Fin p, HasFDerivAt (fun t => toMat p (V t).x i j) (D .x (i.1 + j.1 * p)) t0 := fun i j => hD .x _ (fin_idx_lt i j)
  have hVd : ∀ i j : Fin p, HasFDerivAt (fun t => toMat p (V t).a i j) (D .a (i.1 + j.1 * p)) t0 := fun i j => hD .a _ (fin_idx_lt i j)
  have hb : D .b 0 = 0 ∧ ∀ t, (V t).b 0 = (V t0).b 0 := hc .b hk 0 one_pos
  have ev1 := posDef_open (fun i j => (hXd i j).continuousAt) (fun t => (hA t).1) hok.1
  have ev2 := posDef_open (fun i j => (hVd i j).continuousAt) (fun t => (hA t).2) hok.2.1
  have hdx := hok.1.det_pos.ne'
  have hdv := hok.2.1.det_pos.ne'
  have h1 := (((hasFDerivAt_logDet hXd hdx).const_mul (((V t0).b 0 - p - 1) / 2)).sub ((hasFDerivAt_trace hVd hXd hdv).const_mul (1 / 2))).sub
    ((hasFDerivAt_logDet hVd hdv).const_mul ((V t0).b 0 / 2))
  refine ((h1.const_mul seed).congr_fderiv ?_).congr_of_eventuallyEq ?_
  · have hsx : ∀ i j, (toMat p (V t0).x)⁻¹ j i = (toMat p (V t0).x)⁻¹ i j := inv_symm (hA t0).1
    have hsv : ∀ i j, (toMat p (V t0).a)⁻¹ j i = (toMat p (V t0).a)⁻¹ i j := inv_symm (hA t0).2
    have hsm : ∀ i j, ((toMat p (V t0).a)⁻¹ * toMat p (V t0).x * (toMat p (V t0).a)⁻¹) j i = ((toMat p (V t0).a)⁻¹ * toMat p (V t0).x * (toMat p (V t0).a)⁻¹) i j := by
      intro i j
      have : ((toMat p (V t0).a)⁻¹ * toMat p (V t0).x * (toMat p (V t0).a)⁻¹).transpose = (toMat p (V t0).a)⁻¹ * toMat p (V t0).x * (toMat p (V t0).a)⁻¹ := by
        rw [Matrix.transpose_mul, Matrix.transpose_mul, Matrix.transpose_nonsing_inv, (hA t0).1.eq, (hA t0).2.eq, Matrix.mul_assoc]
      exact congrFun (congrFun this i) j
    show _ = ∑ i ∈ Finset.range (p * p), seedOf calls .x i • D .x i + ∑ i ∈ Finset.range (p * p), seedOf calls .a i • D .a i +
      ∑ i ∈ Finset.range 1, seedOf calls .b i • D .b i
    rw [Finset.sum_range_one, hb.1, smul_zero, add_zero, sum_mat, sum_mat]
    simp only [hsx, hsv, hsm, hx, ha, mul_smul seed, ← Finset.smul_sum, ← smul_add]
    congr 1
    ext u
    simp only [_root_.sum_apply, _root_.smul_apply, _root_.add_apply, _root_.sub_apply, smul_eq_mul]
    exact wishart_alg _ _ _ _ _ (fun i j => D .x (i.1 + j.1 * p) u) fun i j => D .a (i.1 + j.1 * p) u
  · filter_upwards [ev1, ev2] with t ht1 ht2
    have ht : WishartOk p (V t) := ⟨ht1, ht2, by rw [hb.2 t]; exact hok.2.2⟩
    rw [orNegInf_pos ht, wishartLog_eq ht, hb.2 t]
    rfl

/-- `update_v_cache` has stored the facts about `V` -/
def VOk (p : ℕ) (V : ℕ → ℝ) (c : WishartCache ℝ) : Prop :=
  ((toMat p V).PosDef → c.vOk = true ∧ c.logV = 1 / 2 * Real.log (toMat p V).det ∧ toMat p c.vInv = (toMat p V)⁻¹) ∧ (¬ (toMat p V).PosDef → c.vOk = false)

/-- `update_x_cache` has stored the facts about `X` (when `V` is positive definite) -/
def WXOk (p : ℕ) (X V : ℕ → ℝ) (c : WishartCache ℝ) : Prop :=
  (toMat p V).PosDef → ((toMat p X).PosDef → c.xOk = true ∧ c.logX = 1 / 2 * Real.log (toMat p X).det ∧ toMat p c.xInv = (toMat p X)⁻¹ ∧
    toMat p c.xvInv = toMat p X * (toMat p V)⁻¹) ∧ (¬ (toMat p X).PosDef → c.xOk = false)

theorem updateV_ok [LawfulLinAlg] {p : ℕ} {V : ℕ → ℝ} (hs : (toMat p V).IsSymm) (c : WishartCache ℝ) : VOk p V (c.updateV p V) := by
  constructor
  · intro hp
    rw [WishartCache.updateV, if_pos ((llt_iff hs).2 hp)]
    exact ⟨rfl, llt_log hs hp, llt_inv hs hp⟩
  · intro hp
    rw [WishartCache.updateV, if_neg fun h => hp ((llt_iff hs).1 h)]

theorem updateX_v {p : ℕ} {X V : ℕ → ℝ} {c : WishartCache ℝ} (h : VOk p V c) : VOk p V (c.updateX p X) := by
  rw [WishartCache.updateX]
  split
  · split <;> exact h
  · exact h

theorem wUpdateX_ok [LawfulLinAlg] {p : ℕ} {X V : ℕ → ℝ} (hs : (toMat p X).IsSymm) {c : WishartCache ℝ} (h : VOk p V c) : WXOk p X V (c.updateX p X) := by
  intro hv
  obtain ⟨h1, h2, h3⟩ := h.1 hv
  constructor
  · intro hp
    rw [WishartCache.updateX, if_pos h1, if_pos ((llt_iff hs).2 hp)]
    exact ⟨rfl, llt_log hs hp, llt_inv hs hp, by simp only [toMat_mul2, h3]⟩
  · intro hp
    rw [WishartCache.updateX, if_pos h1, if_neg fun h => hp ((llt_iff hs).1 h)]

theorem wishart_computes [LawfulLinAlg] (k : Kinds) (p : ℕ) (hb : k.b = .const) (hx : k.x = .const → k.a = .const) :
    Computes (wishart k p) k (wdim p) (WishartSymm p) (fun _ _ => True) (WishartOk p) (fun _ => True) (wishartLog p) fun _ => True := by
  have main : ∀ (v0 : Args ℝ) (c : WishartCache ℝ) (v : Args ℝ), ((k.a = .const → VOk p v0.a c) ∧ (k.x = .const → WXOk p v0.x v0.a c)) → WishartSymm p v → SameConsts k v0 v →
      ∃ c2 : WishartCache ℝ, (wishart k p).feval c v = (if c2.valid p (v.b 0) then
          ret c2 ((v.b 0 - (p : ℝ) - 1) * c2.logX - half * sumN p (fun i => c2.xvInv (i + i * p)) - v.b 0 * c2.logV) else ret c2 negInf) ∧
        VOk p v.a c2 ∧ WXOk p v.x v.a c2 ∧ ((k.a = .const → VOk p v0.a c2) ∧ (k.x = .const → WXOk p v0.x v0.a c2)) := by
    intro v0 c v hI hs hc
    obtain ⟨c1, e1, v1, x1⟩ : ∃ c1 : WishartCache ℝ, c1 = (if k.a.isConst then c else c.updateV p v.a) ∧ VOk p v.a c1 ∧ (k.x = .const → WXOk p v0.x v0.a c1) := by
      refine ⟨_, rfl, ?_, fun h => ?_⟩
      · by_cases hk : k.a = .const
        · rw [isConst_iff.2 hk, if_pos rfl, show v.a = v0.a from hc .a hk]; exact hI.1 hk
        · rw [isConst_false hk, if_neg (by simp)]; exact updateV_ok hs.2 c
      · rw [isConst_iff.2 (hx h), if_pos rfl]; exact hI.2 h
    obtain ⟨c2, e2, v2, x2, i2⟩ : ∃ c2 : WishartCache ℝ, c2 = (if k.x.isConst then c1 else c1.updateX p v.x) ∧ VOk p v.a c2 ∧ WXOk p v.x v.a c2 ∧
        (k.x = .const → WXOk p v0.x v0.a c2) := by
      refine ⟨_, rfl, ?_⟩
      by_cases hk : k.x = .const
      · rw [isConst_iff.2 hk, if_pos rfl, show v.x = v0.x from hc .x hk, show v.a = v0.a from hc .a (hx hk)]
        exact ⟨by rw [← show v.a = v0.a from hc .a (hx hk)]; exact v1, x1 hk, x1⟩
      · rw [isConst_false hk, if_neg (by simp)]
        exact ⟨updateX_v v1, wUpdateX_ok hs.1 v1, fun h => absurd h hk⟩
    refine ⟨c2, ?_, v2, x2, fun h => ?_, i2⟩
    · simp only [wishart, ← e1, ← e2]
    · rw [← show v.a = v0.a from hc .a h]; exact v2
  have hvalid : ∀ (c : WishartCache ℝ) (v : Args ℝ), VOk p v.a c → WXOk p v.x v.a c → (c.valid p (v.b 0) = true ↔ WishartOk p v) := by
    intro c v h1 h2
    rw [WishartCache.valid, Bool.and_eq_true, Bool.and_eq_true, blt_iff, WishartOk]
    constructor
    · rintro ⟨⟨g1, g2⟩, g3⟩
      have hv : (toMat p v.a).PosDef := by_contra fun h => by rw [h1.2 h] at g2; cases g2
      have hx : (toMat p v.x).PosDef := by_contra fun h => by rw [(h2 hv).2 h] at g1; cases g1
      exact ⟨hx, hv, by linarith⟩
    · rintro ⟨hx, hv, hn⟩
      exact ⟨⟨((h2 hv).1 hx).1, (h1.1 hv).1⟩, by linarith⟩
  refine computes_of (fun _ _ => True) (by simp) (fun v0 (c : WishartCache ℝ) => (k.a = .const → VOk p v0.a c) ∧ (k.x = .const → WXOk p v0.x v0.a c)) ?_ ?_ ?_
  · intro v0 hs
    have hV : ∀ c : WishartCache ℝ, k.a = .const → VOk p v0.a (if k.a.isConst then c.updateV p v0.a else c) := fun c h => by
      rw [isConst_iff.2 h, if_pos rfl]; exact updateV_ok hs.2 c
    refine ⟨_, rfl, fun h => ?_, fun h => ?_⟩
    · by_cases h' : k.x = .const
      · simp only [isConst_iff.2 h', if_true]; exact updateX_v (hV _ h)
      · simp only [isConst_false h', Bool.false_eq_true, if_false]; exact hV _ h
    · simp only [isConst_iff.2 h, if_true]
      exact wUpdateX_ok hs.1 (hV _ (hx h))
  · intro v0 (c : WishartCache ℝ) v hI hs hc _ hok
    obtain ⟨c2, h1, h2, h3, h4⟩ := main v0 c v hI hs hc
    have hv := (hvalid c2 v h2 h3).2 hok
    obtain ⟨g1, g2, g3⟩ := h2.1 hok.2.1
    obtain ⟨f1, f2, f3, f4⟩ := (h3 hok.2.1).1 hok.1
    refine ⟨c2, ?_, h4, by simp [wishart, beq_self], fun seed h0 _ _ => ?_⟩
    · rw [h1, if_pos hv, wishartLog_eq hok, f2, g2, half_eq]
      have ht : sumN p (fun i => c2.xvInv (i + i * p)) = ((toMat p v.a)⁻¹ * toMat p v.x).trace := by
        rw [Matrix.trace_mul_comm, ← f4, sumN_eq, mat_range]
        rfl
      rw [ht]
      refine congrArg (fun y => some (c2, y)) ?_
      ring
    · simp only [wishart, seed_ne h0, hv, Bool.not_true, Bool.or_self, Bool.false_eq_true, if_false]
      refine wishart_gradient hb hok (fun i j => ?_) fun i j => ?_
      · rw [← f3, ← g3]
        simp [seedOf, half_eq, toMat]
        ring
      · rw [show (toMat p v.a)⁻¹ * toMat p v.x * (toMat p v.a)⁻¹ = toMat p (mul2 p c2.vInv c2.xvInv) by rw [toMat_mul2, f4, g3, Matrix.mul_assoc], ← g3]
        simp [seedOf, half_eq, toMat]
        ring
  · intro v0 (c : WishartCache ℝ) v hI hs hc _ hok
    obtain ⟨c2, h1, h2, h3, h4⟩ := main v0 c v hI hs hc
    have hv : c2.valid p (v.b 0) = false := by rw [← Bool.not_eq_true, hvalid c2 v h2 h3]; exact hok
    refine ⟨c2, by rw [h1, hv]; rfl, h4, fun seed => ?_⟩
    simp only [wishart, hv, Bool.not_false, Bool.or_true, if_true]

end

end FastAD
