import Verif.Proof.Nodes
import Verif.Proof.StatCauchy

/-!
# What `det` does at singular matrices and `cauchy_adj_log_pdf` with other seeds than 1
-/

namespace FastAD

open Matrix

theorem hasDerivAt_det_entry {n : ℕ} (M : Matrix (Fin n) (Fin n) ℝ) (i j : Fin n) :
    HasDerivAt (fun t => (M.updateRow i (Function.update (M i) j t)).det) (M.adjugate j i) (M i j) := by
  have h : (fun t => (M.updateRow i (Function.update (M i) j t)).det) = fun t => M.det + (t - M i j) * M.adjugate j i := by
    funext t
    have e : Function.update (M i) j t = M i + (t - M i j) • Pi.single j (1 : ℝ) := by
      ext k
      by_cases hk : k = j
      · subst hk; simp
      · simp [hk]
    rw [e, det_updateRow_add, det_updateRow_smul, updateRow_eq_self, adjugate_apply]
  rw [h]
  simpa using ((hasDerivAt_id' (M i j)).sub_const (M i j)).mul_const (M.adjugate j i) |>.const_add M.det

section
variable [HasInf ℝ] [LinAlg ℝ]

theorem det_invalid {p : Decomp} {e : Expr ℝ} {w : View} {m : ℕ → ℝ} (hv : (RedOp.det p).valid e.shape.rows (trunc e.shape.size (e.denote m)) = false) (seed : ℕ → ℝ) (a : ℕ) :
    (Expr.reduce (.det p) (.cons e .nil) w).grad m seed a = 0 := by
  simp only [Expr.grad, Exprs.grads, Exprs.denotes, List.map_cons, List.map_nil, RedOp.bmap, RedOp.bmap1, hv, Bool.not_false, Bool.or_true, if_true, add_zero]

theorem det_singular_invalid [LawfulLinAlg] {p : Decomp} {e : Expr ℝ} {m : ℕ → ℝ} (hsq : e.shape.rows = e.shape.cols) (hpre : p.Pre e.shape.rows (e.denote m))
    (hdet : (toMat e.shape.rows (e.denote m)).det = 0) : (RedOp.det p).valid e.shape.rows (trunc e.shape.size (e.denote m)) = false := by
  cases p with
  | lu => exact invalid_lu (.inl rfl) hsq hdet
  | ldlt => exact invalid_ldlt hsq hpre.1 hpre.2 hdet
  | llt => exact absurd hdet (Matrix.PosDef.det_pos hpre).ne'

omit [LinAlg ℝ] in
theorem cauchyScl_seed (sl : Bool) (n : ℕ) {v : Args ℝ} (hv : ScaleOk true n v) (c : Unit) (seed : ℝ) (i : ℕ) :
    seedOf ((cauchyScl (α := ℝ) sl n).beval c v seed) .x i = seed * seedOf ((cauchyScl (α := ℝ) sl n).beval c v 1) .x i ∧
    seedOf ((cauchyScl (α := ℝ) sl n).beval c v seed) .a i = seed ^ 2 * seedOf ((cauchyScl (α := ℝ) sl n).beval c v 1) .a i ∧
    seedOf ((cauchyScl (α := ℝ) sl n).beval c v seed) .b i = seed ^ 2 * seedOf ((cauchyScl (α := ℝ) sl n).beval c v 1) .b i + (seed ^ 2 - seed) * (n / v.b 0) := by
  by_cases h0 : seed = 0
  · subst h0
    simp [cauchyScl, Fn.beq, seedOf]
  have hs := (scaleOk_scl _ _).1 hv
  simp only [cauchyScl, seed_ne h0, seed_ne (one_ne_zero : (1 : ℝ) ≠ 0), blt_true hs, Bool.not_true, Bool.or_self, Bool.false_eq_true, if_false, sumN_eq]
  have e : ∀ d q : ℝ, (-(1 + 1) * seed) * d / q = seed * ((-(1 + 1) * 1) * d / q) := fun d q => by ring
  refine ⟨?_, ?_, ?_⟩
  · simp [seedOf]; ring
  · cases sl
    · simp [seedOf]; ring
    · simp only [seedOf, e]; simp [← Finset.mul_sum]; ring
  · simp only [seedOf, e]
    simp [mul_assoc, ← Finset.mul_sum]
    ring

omit [LinAlg ℝ] in
theorem cauchyVec_seed (sl : Bool) (n : ℕ) {v : Args ℝ} (hv : ScaleOk false n v) (c : Unit) (seed : ℝ) (i : ℕ) :
    seedOf ((cauchyVec (α := ℝ) sl n).beval c v seed) .x i = seed * seedOf ((cauchyVec (α := ℝ) sl n).beval c v 1) .x i ∧
    seedOf ((cauchyVec (α := ℝ) sl n).beval c v seed) .a i = seed ^ 2 * seedOf ((cauchyVec (α := ℝ) sl n).beval c v 1) .a i ∧
    seedOf ((cauchyVec (α := ℝ) sl n).beval c v seed) .b i = seed ^ 2 * seedOf ((cauchyVec (α := ℝ) sl n).beval c v 1) .b i + (seed ^ 2 - seed) * (1 / v.b i) := by
  by_cases h0 : seed = 0
  · subst h0
    simp [cauchyVec, Fn.beq, seedOf]
  have hb := (allN_vec _ _).2 hv
  simp only [cauchyVec, seed_ne h0, seed_ne (one_ne_zero : (1 : ℝ) ≠ 0), hb, Bool.not_true, Bool.or_self, Bool.false_eq_true, if_false, sumN_eq]
  have e : ∀ d q : ℝ, (-(1 + 1) * seed) * d / q = seed * ((-(1 + 1) * 1) * d / q) := fun d q => by ring
  refine ⟨?_, ?_, ?_⟩
  · simp [seedOf]; ring
  · cases sl
    · simp [seedOf]; ring
    · simp only [seedOf, e]; simp [← Finset.mul_sum]; ring
  · cases sl <;> simp [seedOf] <;> ring

end

end FastAD
