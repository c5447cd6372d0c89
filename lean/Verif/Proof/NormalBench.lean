import Verif.Model.NormalBench
import Verif.Spec.NormalBench
import Verif.Proof.RepeatedStddev
import Verif.Proof.StatGrad
import Verif.Proof.StatMat
import Mathlib.LinearAlgebra.Matrix.Block

/-!
# The benchmarks of the multivariate normal log-density: helper lemmas
-/

namespace FastAD

namespace Benchmark

open Readme

set_option linter.unusedSimpArgs false
set_option linter.unusedSectionVars false

theorem lowerTri_det (n : ℕ) (r : ℕ → ℕ → ℝ) : (lowerTri n r).det = 10 ^ n := by
  rw [Matrix.det_of_isLowerTriangular]
  · simp [lowerTri]
  · intro i j h
    have h : i < j := h
    simp [lowerTri, h.not_gt, h.ne]

theorem covMat_det (n : ℕ) (r : ℕ → ℕ → ℝ) : (covMat n r).det = 10 ^ n * 10 ^ n := by
  rw [covMat, Matrix.det_mul, Matrix.det_transpose, lowerTri_det]

theorem cov_posDef (n : ℕ) (r : ℕ → ℕ → ℝ) : (covMat n r).PosDef := by
  have h : IsUnit (lowerTri n r) := by
    rw [Matrix.isUnit_iff_isUnit_det, lowerTri_det]
    exact (by positivity : (10 : ℝ) ^ n ≠ 0).isUnit
  have := Matrix.PosDef.mul_conjTranspose_self (lowerTri n r) (Matrix.vecMul_injective_of_isUnit h)
  rwa [Matrix.conjTranspose_eq_transpose_of_trivial] at this

theorem covMat_symm (n : ℕ) (r : ℕ → ℕ → ℝ) : (covMat n r).IsSymm := by
  rw [Matrix.IsSymm, covMat, Matrix.transpose_mul, Matrix.transpose_transpose]

theorem toMat_cov {n : ℕ} {r : ℕ → ℕ → ℝ} {f : ℕ → ℝ} (h : ∀ q < n * n, f q = covEntry n r q) : toMat n f = covMat n r := by
  ext i j
  have hi := i.2
  have hj := j.2
  have h1 : i.1 + j.1 * n < n * n := by nlinarith
  have hn : 0 < n := by omega
  have h2 : (i.1 + j.1 * n) % n = i.1 := by rw [Nat.add_mul_mod_self_right, Nat.mod_eq_of_lt hi]
  have h3 : (i.1 + j.1 * n) / n = j.1 := by rw [Nat.add_mul_div_right _ _ hn, Nat.div_eq_of_lt hi, zero_add]
  have hL : ∀ a b : Fin n, covFactor r a.1 b.1 = lowerTri n r a b := fun a b => by
    simp [covFactor, lowerTri, Fin.ext_iff]
  simp only [toMat, Matrix.of_apply]
  rw [h _ h1, covEntry, sumN_eq, Finset.sum_range, h2, h3, covMat, Matrix.mul_apply]
  exact Finset.sum_congr rfl fun k _ => by rw [hL, hL, Matrix.transpose_apply]

/-- the log-density as a sum -/
theorem kernel_log {n : ℕ} {S : Matrix (Fin n) (Fin n) ℝ} (hd : 0 < S.det) (m x : Fin n → ℝ) :
    Real.log (mvNormalKernel S m x) = -(1 / 2) * dotProduct (x - m) (S⁻¹.mulVec (x - m)) - 1 / 2 * Real.log S.det := by
  rw [mvNormalKernel, Real.log_div (Real.exp_ne_zero _) (Real.sqrt_pos.2 hd).ne', Real.log_exp, Real.log_sqrt hd.le]
  ring

theorem kernel_value (n : ℕ) (r : ℕ → ℕ → ℝ) : Real.log (mvNormalKernel (covMat n r) 0 0) = -(n * Real.log 10) := by
  rw [kernel_log (by rw [covMat_det]; positivity), covMat_det, Real.log_mul (by positivity) (by positivity), Real.log_pow]
  simp
  ring

variable [HasInf ℝ] [LinAlg ℝ]

theorem covInv_symm (n : ℕ) (r : ℕ → ℕ → ℝ) (i j : Fin n) : (covMat n r)⁻¹ j i = (covMat n r)⁻¹ i j := by
  have : (covMat n r)⁻¹.transpose = (covMat n r)⁻¹ := by rw [Matrix.transpose_nonsing_inv, (covMat_symm n r).eq]
  conv_rhs => rw [← this, Matrix.transpose_apply]

theorem kernel_deriv (n : ℕ) (r : ℕ → ℕ → ℝ) (x m dx dm : Fin n → ℝ) (H : Matrix (Fin n) (Fin n) ℝ) :
    HasDerivAt (fun t : ℝ => Real.log (mvNormalKernel (covMat n r + t • H) (m + t • dm) (x + t • dx)))
      (∑ i, -((covMat n r)⁻¹.mulVec (x - m) i) * dx i + ∑ i, (covMat n r)⁻¹.mulVec (x - m) i * dm i +
        ∑ i, ∑ j, -(1 / 2) * ((covMat n r)⁻¹ i j - (covMat n r)⁻¹.mulVec (x - m) i * (covMat n r)⁻¹.mulVec (x - m) j) * H i j) 0 := by
  have hA : ∀ i j, HasFDerivAt (fun t : ℝ => (covMat n r + t • H) i j) (ContinuousLinearMap.toSpanSingleton ℝ (H i j)) 0 := fun i j => by
    have := ((hasDerivAt_id' (0 : ℝ)).mul_const (H i j)).const_add (covMat n r i j)
    rw [one_mul] at this
    exact this.hasFDerivAt
  have hd : ∀ i, HasFDerivAt (fun t : ℝ => ((x + t • dx) - (m + t • dm)) i) (ContinuousLinearMap.toSpanSingleton ℝ (dx i - dm i)) 0 := fun i => by
    have := (((hasDerivAt_id' (0 : ℝ)).mul_const (dx i)).const_add (x i)).sub (((hasDerivAt_id' (0 : ℝ)).mul_const (dm i)).const_add (m i))
    rw [one_mul, one_mul] at this
    exact this.hasFDerivAt
  have h0 : covMat n r + (0 : ℝ) • H = covMat n r := by simp
  have hz : (x + (0 : ℝ) • dx) - (m + (0 : ℝ) • dm) = x - m := by simp
  have hdet : 0 < (covMat n r + (0 : ℝ) • H).det := by rw [h0, covMat_det]; positivity
  have hev : ∀ᶠ t in nhds (0 : ℝ), 0 < (covMat n r + t • H).det := (hasFDerivAt_det hA).continuousAt.eventually_const_lt hdet
  have h1 := ((hasFDerivAt_quad hA hd hdet.ne' (by rw [h0]; exact covMat_symm n r)).const_mul (-(1 / 2) : ℝ)).sub ((hasFDerivAt_logDet hA hdet.ne').const_mul (1 / 2 : ℝ))
  have h2 := (h1.congr_of_eventuallyEq (hev.mono fun t ht => kernel_log ht (m + t • dm) (x + t • dx))).hasDerivAt
  rw [h0, hz] at h2
  convert! h2 using 1
  have := mvNormal_alg ((covMat n r)⁻¹.mulVec (x - m)) (fun i j => (covMat n r)⁻¹ i j) (fun i j => H i j) dx dm
  simp only [_root_.sub_apply, _root_.smul_apply, _root_.sum_apply, ContinuousLinearMap.toSpanSingleton_apply, one_smul, smul_eq_mul, one_mul, covInv_symm]
  rw [this]
  congr 1
  exact Finset.sum_congr rfl fun i _ => Finset.sum_congr rfl fun j _ => by ring

/-- `rounds_expr` for several cells -/
theorem rounds_cells {e : Expr ℝ} {s : St ℝ} {qv qa : ℕ} {jv ja : ℕ → ℝ} (hp : e.Program) (hflat : e.flat = [e]) (hplace : e.placeholder = none) (hal : e.Alive s.vok s.aok)
    (hf : Fresh s e.bindSize qv qa) (hst : e.Stable) (hsz : e.size = 1) {C : Set ℕ} (hv : ∀ a ∈ C, s.vok a = true) (ha : ∀ a ∈ C, s.aok a = true) {m0 d : ℕ → ℝ} {f : ℝ}
    (hag : ∀ m : ℕ → ℝ, (∀ a ∈ C, m a = m0 a) → e.result m 0 = f ∧ ∀ A, ∀ a ∈ C, e.back m (fun _ => 1) A a = A a + d a) (N : ℕ) :
    ∀ s1, Later (bindExpr e qv qa jv ja s).2 s1 → (∀ a ∈ C, s1.val a = m0 a) →
      ∃ s2, rounds (bindExpr e qv qa jv ja s).1 N s1 = some (List.replicate N f, s2) ∧ s2.aok = s1.aok ∧ ∀ a ∈ C, s2.adj a = s1.adj a + N * d a := by
  have off : ∀ a ∈ C, ¬ (qa ≤ a ∧ a < qa + e.bindSize.adj) := fun a h0 h => by
    have := hf.2 (a - qa) (by omega)
    rw [Nat.add_sub_cancel' h.1, ha a h0] at this
    cases this
  have offv : ∀ a ∈ C, ¬ (qv ≤ a ∧ a < qv + e.bindSize.val) := fun a h0 h => by
    have := hf.1 (a - qv) (by omega)
    rw [Nat.add_sub_cancel' h.1, hv a h0] at this
    cases this
  have hpl : ∀ a, a ∉ e.placeCells := fun a => by rw [Expr.placeCells, hflat]; simp [hplace]
  induction N with
  | zero => exact fun s1 _ _ => ⟨s1, rfl, rfl, by simp⟩
  | succ N ih =>
    intro s1 hl h0
    obtain ⟨s2, ref, h⟩ := later_autodiff (s1 := s1) hp hal hf (jv := jv) (ja := ja) hl (fun _ => 1)
    obtain ⟨g1, g2⟩ := hag s1.val h0
    obtain ⟨s3, k1, k2, k3⟩ := ih s2 ⟨fun a ha => by rw [h.vok]; exact hl.1 a ha, fun a ha => by rw [h.aok]; exact hl.2 a ha⟩
      (fun a hC => by rw [h.val a (offv a hC), prog_restore hp (hpl a)]; exact h0 a hC)
    have hread : ref.read s2 1 = some (trunc 1 (e.result s1.val)) := by
      have := h.value hst
      rwa [hsz] at this
    refine ⟨s3, ?_, k2.trans h.aok, fun a hC => ?_⟩
    · simp only [rounds, h.run, hread, k1, Option.bind_eq_bind, Option.bind_some, trunc_of_lt one_pos, g1, List.replicate_succ]
    · rw [k3 a hC, h.adj a (off a hC), hflat]
      have e2 : backL [e] s1.val (fun _ => 1) s1.adj a = s1.adj a + d a := g2 s1.adj a hC
      rw [e2]
      push_cast
      ring

section
variable {n p : ℕ} {r : ℕ → ℕ → ℝ}

/-- the expression of both benchmarks -/
noncomputable def normalNode (n p : ℕ) : Expr ℝ := normalExpr (vecVar n p p) (vecVar n (p + n) (p + n)) (matVar n n (p + n + n) (p + n + n))

/-- contents of `val`, relative to its begin -/
noncomputable def normalVals (n : ℕ) (xs ms : ℕ → ℝ) (r : ℕ → ℕ → ℝ) (k : ℕ) : ℝ := if k < n then xs k else if k < n + n then ms (k - n) else covEntry n r (k - (n + n))

/-- the inverse covariance matrix times the deviation -/
noncomputable def normalZ (n : ℕ) (xs ms : ℕ → ℝ) (r : ℕ → ℕ → ℝ) (i : ℕ) : ℝ := ∑ j ∈ Finset.range n, fromMat (covMat n r)⁻¹ (i + j * n) * (xs j - ms j)

/-- what one round adds to `adj` -/
noncomputable def normalAdd (n : ℕ) (xs ms : ℕ → ℝ) (r : ℕ → ℕ → ℝ) (k : ℕ) : ℝ :=
  if k < n then -normalZ n xs ms r k else if k < n + n then normalZ n xs ms r (k - n) else
    -(1 / 2) * (fromMat (covMat n r)⁻¹ (k - (n + n)) - normalZ n xs ms r ((k - (n + n)) % n) * normalZ n xs ms r ((k - (n + n)) / n))

theorem fromMat_at {n : ℕ} (M : Matrix (Fin n) (Fin n) ℝ) (i j : Fin n) : fromMat M (i + j * n) = M i j := congrFun (congrFun (toMat_fromMat M) i) j

theorem normalZ_eq {xs ms : ℕ → ℝ} (i : Fin n) : normalZ n xs ms r i = (covMat n r)⁻¹.mulVec ((fun i : Fin n => xs i) - fun i : Fin n => ms i) i := by
  rw [normalZ, Finset.sum_range]
  exact Finset.sum_congr rfl fun j _ => by rw [fromMat_at]; rfl

theorem views_eq {flat : Bool} {s : St ℝ} (hv : ∀ k < n + n + n * n, s.vok (p + k) = true) (ha : ∀ k < n + n + n * n, s.aok (p + k) = true) :
    normalViews flat n p s = some (vecVar n p p, vecVar n (p + n) (p + n), matVar n n (p + n + n) (p + n + n)) := by
  have a1 : ∀ ok : ℕ → Bool, (∀ k < n + n + n * n, ok (p + k) = true) → accessible ok (some p) n := fun ok h k hk => h k (by omega)
  have a2 : ∀ ok : ℕ → Bool, (∀ k < n + n + n * n, ok (p + k) = true) → accessible ok (some (p + n)) n := fun ok h k hk => by
    have := h (n + k) (by omega)
    rwa [← add_assoc] at this
  have a3 : ∀ ok : ℕ → Bool, (∀ k < n + n + n * n, ok (p + k) = true) → accessible ok (some (p + n + n)) (n * n) := fun ok h k hk => by
    have := h (n + n + k) (by omega)
    rwa [← add_assoc, ← add_assoc] at this
  have e1 : (View.null (.vec n)).size = n := by simp [View.null, View.size, Shape.size, Shape.vec]
  have e2 : (View.null (.mat n n)).size = n * n := by simp [View.null, View.size, Shape.size, Shape.mat]
  have b1 : (View.null (.vec n)).bindChk s.vok s.aok ⟨some p, some p⟩ = some (vecVar n p p, ⟨some (p + n), some (p + n)⟩) := by
    simp only [View.bindChk, ptrAdd, e1, if_pos (a1 _ hv), if_pos (a1 _ ha)]; rfl
  have b2 : (View.null (.vec n)).bindChk s.vok s.aok ⟨some (p + n), some (p + n)⟩ = some (vecVar n (p + n) (p + n), ⟨some (p + n + n), some (p + n + n)⟩) := by
    simp only [View.bindChk, ptrAdd, e1, if_pos (a2 _ hv), if_pos (a2 _ ha)]; rfl
  have b3 : (View.null (.mat n n)).bindChk s.vok s.aok ⟨some (p + n + n), some (p + n + n)⟩ = some (matVar n n (p + n + n) (p + n + n), ⟨some (p + n + n + n * n), some (p + n + n + n * n)⟩) := by
    simp only [View.bindChk, ptrAdd, e2, if_pos (a3 _ hv), if_pos (a3 _ ha)]; rfl
  cases flat <;> simp only [normalViews, b1, b2, b3, Option.bind_eq_bind, Option.bind_some, if_true, Bool.false_eq_true, if_false] <;> rfl

theorem node_denotes (m : ℕ → ℝ) : (Exprs.cons (.var (vecVar n p p)) (.cons (.var (vecVar n (p + n) (p + n))) (.cons (.var (matVar n n (p + n + n) (p + n + n))) .nil)) : Exprs ℝ).denotes m =
    [(.vec n, fun k => m (p + k)), (.vec n, fun k => m (p + n + k)), (.mat n n, fun k => m (p + n + n + k))] := by
  rfl

section
variable {xs ms m : ℕ → ℝ}

theorem vals_sigma (h : ∀ k < n + n + n * n, m (p + k) = normalVals n xs ms r k) : toMat n (fun k => m (p + n + n + k)) = covMat n r := toMat_cov fun q hq => by
  have := h (n + n + q) (by omega)
  rw [normalVals, if_neg (by omega), if_neg (by omega), ← add_assoc, ← add_assoc, Nat.add_sub_cancel_left] at this
  exact this

theorem vals_x (h : ∀ k < n + n + n * n, m (p + k) = normalVals n xs ms r k) {k : ℕ} (hk : k < n) : m (p + k) = xs k := by
  have := h k (by omega)
  rwa [normalVals, if_pos hk] at this

theorem vals_mu (h : ∀ k < n + n + n * n, m (p + k) = normalVals n xs ms r k) {k : ℕ} (hk : k < n) : m (p + n + k) = ms k := by
  have := h (n + k) (by omega)
  rwa [normalVals, if_neg (by omega), if_pos (by omega), ← add_assoc, Nat.add_sub_cancel_left] at this

theorem node_denote [LawfulLinAlg] (h : ∀ k < n + n + n * n, m (p + k) = normalVals n xs ms r k) :
    (normalNode n p).denote m 0 = Real.log (mvNormalKernel (covMat n r) (fun i => ms i) fun i => xs i) := by
  have hS := vals_sigma h
  have hp : (toMat n (fun k => m (p + n + n + k))).PosDef := by rw [hS]; exact cov_posDef n r
  have hs : (toMat n (fun k => m (p + n + n + k))).IsSymm := by rw [hS]; exact covMat_symm n r
  have hd : (fun i : Fin n => m (p + i) - m (p + n + i)) = (fun i : Fin n => xs i) - fun i : Fin n => ms i := by
    funext i
    rw [vals_x h i.2, vals_mu h i.2]
    rfl
  have hl : Real.log (LinAlg.lltDetL n (trunc (n * n) fun k => m (p + n + n + k))) = _ := llt_log hs hp
  simp only [normalNode, normalExpr, Expr.mkReduce, Expr.denote, node_denotes, RedOp.reals, statArgs, Option.elim, StatOp.real, Shape.vec, (llt_iff hs).2 hp, if_true, pidx, Bool.false_eq_true, if_false, hd, hl,
    llt_inv hs hp]
  rw [hS, kernel_log (cov_posDef n r).det_pos]

theorem node_grad [LawfulLinAlg] (h : ∀ k < n + n + n * n, m (p + k) = normalVals n xs ms r k) {k : ℕ} (hk : k < n + n + n * n) :
    (normalNode n p).grad m (fun _ => 1) (p + k) = normalAdd n xs ms r k := by
  have hS := vals_sigma h
  have hp : (toMat n (fun k => m (p + n + n + k))).PosDef := by rw [hS]; exact cov_posDef n r
  have hs : (toMat n (fun k => m (p + n + n + k))).IsSymm := by rw [hS]; exact covMat_symm n r
  have hok := (llt_iff hs).2 hp
  have hinv := llt_inv hs hp
  rw [hS] at hinv
  have htt : trunc (n * n) (trunc (n * n) fun k => m (p + n + n + k)) = trunc (n * n) fun k => m (p + n + n + k) := by
    funext k; simp only [trunc]; split_ifs <;> rfl
  have hI : ∀ q < n * n, LinAlg.symInv n (trunc (n * n) fun k => m (p + n + n + k)) q = fromMat (covMat n r)⁻¹ q := fun q hq => by
    rw [fromMat, dif_pos hq, ← hinv]
    simp only [toMat, Matrix.of_apply]
    congr 1
    rw [mul_comm]
    exact (Nat.mod_add_div q n).symm
  have hZ : ∀ i < n, (sumN n fun j => LinAlg.symInv n (trunc (n * n) fun k => m (p + n + n + k)) (i + j * n) * (trunc n (fun k => m (p + k)) j - trunc n (fun k => m (p + n + k)) j)) =
      normalZ n xs ms r i := fun i hi => by
    rw [sumN_eq, normalZ]
    refine Finset.sum_congr rfl fun j hj => ?_
    have hj := Finset.mem_range.1 hj
    rw [hI _ (by nlinarith), trunc_of_lt hj, trunc_of_lt hj, vals_x h hj, vals_mu h hj]
  obtain ⟨Z, hZd⟩ : ∃ Z : ℕ → ℝ, Z = fun i => sumN n fun j => LinAlg.symInv n (trunc (n * n) fun k => m (p + n + n + k)) (i + j * n) * (trunc n (fun k => m (p + k)) j - trunc n (fun k => m (p + n + k)) j) :=
    ⟨_, rfl⟩
  have hZ' : ∀ i < n, Z i = normalZ n xs ms r i := fun i hi => by rw [hZd]; exact hZ i hi
  have hb : ∀ (f : ℝ) (i : ℕ), RedOp.bmap (.stat (.normalMat false) ⟨.leaf, .leaf, .leaf⟩) 1
      [((.vec n : Shape), trunc n fun k => m (p + k)), (.vec n, trunc n fun k => m (p + n + k)), (.mat n n, trunc (n * n) fun k => m (p + n + n + k))] f i =
      some (if i = 0 then fun q => -Z q else if i = 1 then fun q => Z q else fun q => -(1 / 2) * (LinAlg.symInv n (trunc (n * n) fun k => m (p + n + n + k)) q - Z (q % n) * Z (q / n))) := by
    intro f i
    have hbeq : Fn.beq (1 : ℝ) 0 = false := by simp [Fn.beq]
    rcases i with _ | _ | i <;>
      simp [RedOp.bmap, StatOp.bmap, statArgs, StatOp.node, StatNode.once, normalMat, NormalMatCache.update, htt, hok, ret, hZd, slotOf, ArgKind.isConst, half_eq, List.lookup, Shape.vec, hbeq,
        show (Slot.x == Slot.b) = false from rfl, show (Slot.x == Slot.a) = false from rfl, show (Slot.a == Slot.b) = false from rfl,
        show (Slot.x == Slot.x) = true from rfl, show (Slot.a == Slot.a) = true from rfl, show (Slot.b == Slot.b) = true from rfl]
  have e1 : (Shape.vec n).size = n := by simp [Shape.size, Shape.vec]
  have e2 : (Shape.mat n n).size = n * n := by simp [Shape.size, Shape.mat]
  simp only [normalNode, normalExpr, Expr.mkReduce, Expr.grad, node_denotes, List.map_cons, List.map_nil, e1, e2, hb, Exprs.grads]
  have e3 : (vecVar n p p).size = n := e1
  have e4 : (vecVar n (p + n) (p + n)).size = n := e1
  have e5 : (matVar n n (p + n + n) (p + n + n)).size = n * n := e2
  have e6 : addr (matVar n n (p + n + n) (p + n + n)).adj = p + n + n := rfl
  have e7 : addr (vecVar n p p).adj = p := rfl
  have e8 : addr (vecVar n (p + n) (p + n)).adj = p + n := rfl
  simp only [e3, e4, e5, e6, e7, e8, normalAdd, if_true, zero_add, if_false, one_ne_zero, ite_self, add_zero, Nat.reduceAdd, OfNat.ofNat_ne_zero, OfNat.ofNat_ne_one]
  by_cases h1 : k < n
  · rw [if_pos h1, if_pos (by omega), if_neg (by omega), if_neg (by omega), Nat.add_sub_cancel_left, hZ' k h1]
    ring
  by_cases h2 : k < n + n
  · rw [if_neg h1, if_pos h2, if_neg (by omega), if_pos (by omega), if_neg (by omega), show p + k - (p + n) = k - n by omega, hZ' _ (by omega)]
    ring
  · rw [if_neg h1, if_neg h2, if_neg (by omega), if_neg (by omega), if_pos (by omega)]
    obtain ⟨q, rfl⟩ : ∃ q, k = n + n + q := ⟨k - (n + n), by omega⟩
    have hq : q < n * n := by omega
    have hn : 0 < n := Nat.pos_of_ne_zero (by rintro rfl; simp at hq)
    rw [show p + (n + n + q) - (p + n + n) = q by omega, Nat.add_sub_cancel_left, hI q hq, hZ' _ (Nat.mod_lt _ hn), hZ' _ (Nat.div_lt_of_lt_mul hq)]
    ring

end

theorem node_bindSize : (normalNode n p).bindSize = ⟨1, 0⟩ := rfl

theorem node_wf : (normalNode n p).WF := by
  refine ⟨?_, rfl, .inr ⟨_, _, rfl, n, rfl, rfl, rfl, ?_, ?_, trivial⟩⟩
  · simp [Exprs.WFs, Expr.WF, vecVar, matVar, Shape.Ok, Shape.vec, Shape.mat]
  · simp [Exprs.toList, Expr.isIf]
  · simp [Exprs.toList, StatOp.slots, Expr.isConstView]

theorem node_alive {vok aok : ℕ → Bool} (hv : ∀ k < n + n + n * n, vok (p + k) = true) (ha : ∀ k < n + n + n * n, aok (p + k) = true) : (normalNode n p).Alive vok aok := by
  have e1 : (vecVar n p p).size = n := by simp [vecVar, View.size, Shape.size, Shape.vec]
  have e2 : (vecVar n (p + n) (p + n)).size = n := by simp [vecVar, View.size, Shape.size, Shape.vec]
  have e3 : (matVar n n (p + n + n) (p + n + n)).size = n * n := by simp [matVar, View.size, Shape.size, Shape.mat]
  constructor
  · intro w hw
    have hw : w = vecVar n p p ∨ w = vecVar n (p + n) (p + n) ∨ w = matVar n n (p + n + n) (p + n + n) := by
      simpa [normalNode, normalExpr, Expr.mkReduce, Expr.vars, Exprs.varss] using hw
    rcases hw with rfl | rfl | rfl
    · exact ⟨fun k hk => hv k (by rw [e1] at hk; omega), fun k hk => ha k (by rw [e1] at hk; omega)⟩
    · refine ⟨fun k hk => ?_, fun k hk => ?_⟩ <;> rw [e2] at hk
      · have := hv (n + k) (by omega)
        rwa [← add_assoc] at this
      · have := ha (n + k) (by omega)
        rwa [← add_assoc] at this
    · refine ⟨fun k hk => ?_, fun k hk => ?_⟩ <;> rw [e3] at hk
      · have := hv (n + n + k) (by omega)
        rwa [← add_assoc, ← add_assoc] at this
      · have := ha (n + n + k) (by omega)
        rwa [← add_assoc, ← add_assoc] at this
  · intro c hc
    simp [normalNode, normalExpr, Expr.mkReduce, Expr.cviews, Exprs.cviewss] at hc

theorem normal_run [LawfulLinAlg] {flat : Bool} {xs ms : ℕ → ℝ} {N qv qa : ℕ} {jv ja : ℕ → ℝ} {s : St ℝ}
    (hf : Fresh (s.allocate ⟨n + n + n * n, n + n + n * n⟩ p p (fun k => if k < n then xs k else if k < n + n then ms (k - n) else 0) fun _ => 0) ⟨1, 0⟩ qv qa) :
    normalBench flat n p xs ms r N qv qa jv ja s =
      some (List.replicate N (Real.log (mvNormalKernel (covMat n r) (fun i => ms i) fun i => xs i)), (List.range (n + n + n * n)).map fun k => N * normalAdd n xs ms r k) := by
  obtain ⟨s0, hs0⟩ : ∃ s0, s0 = s.allocate ⟨n + n + n * n, n + n + n * n⟩ p p (fun k => if k < n then xs k else if k < n + n then ms (k - n) else 0) fun _ => 0 := ⟨_, rfl⟩
  rw [← hs0] at hf
  have hv : ∀ k < n + n + n * n, s0.vok (p + k) = true := fun k hk => by simp [hs0, St.allocate, hk]
  have ha : ∀ k < n + n + n * n, s0.aok (p + k) = true := fun k hk => by simp [hs0, St.allocate, hk]
  have h0 : ∀ k < n + n + n * n, s0.val (p + k) = if k < n then xs k else if k < n + n then ms (k - n) else 0 := fun k hk => by simp [hs0, St.allocate, fillRange, hk]
  have h1 : ∀ k < n + n + n * n, s0.adj (p + k) = 0 := fun k hk => by simp [hs0, St.allocate, fillRange, hk]
  obtain ⟨s1, hs1⟩ : ∃ s1, s1 = { s0 with val := fillRange s0.val (p + n + n) (n * n) (covEntry n r) } := ⟨_, rfl⟩
  have hw : s0.writeV (some (p + n + n)) (n * n) (covEntry n r) = some s1 := by
    rw [St.writeV, if_pos, hs1]
    · rfl
    · intro k hk
      have := hv (n + n + k) (by omega)
      rwa [← add_assoc, ← add_assoc] at this
  have hv1 : s1.vok = s0.vok := by rw [hs1]
  have ha1 : s1.aok = s0.aok := by rw [hs1]
  have hj1 : s1.adj = s0.adj := by rw [hs1]
  have hval : ∀ k < n + n + n * n, s1.val (p + k) = normalVals n xs ms r k := fun k hk => by
    rw [hs1, normalVals]
    show fillRange s0.val (p + n + n) (n * n) (covEntry n r) (p + k) = _
    rw [fillRange]
    by_cases g : k < n + n
    · rw [if_neg (by omega), h0 k hk]
      split_ifs <;> rfl
    · rw [if_pos (by omega), if_neg (by omega), if_neg g]
      congr 1
      omega
  have hf1 : Fresh s1 (normalNode n p).bindSize qv qa := by rw [node_bindSize]; exact ⟨by rw [hv1]; exact hf.1, by rw [ha1]; exact hf.2⟩
  have hbv : ∀ k < n + n + n * n, (bindExpr (normalNode n p) qv qa jv ja s1).2.val (p + k) = normalVals n xs ms r k := fun k hk => by
    rw [← hval k hk]
    refine if_neg fun h => ?_
    have := hf1.1 (p + k - qv) (by have := h.1; have := h.2; omega)
    rw [Nat.add_sub_cancel' h.1, hv1, hv k hk] at this
    cases this
  have hba : ∀ k < n + n + n * n, (bindExpr (normalNode n p) qv qa jv ja s1).2.adj (p + k) = 0 := fun k hk => by
    rw [← h1 k hk, ← hj1]
    refine if_neg fun h => ?_
    have := hf1.2 (p + k - qa) (by have := h.1; have := h.2; omega)
    rw [Nat.add_sub_cancel' h.1, ha1, ha k hk] at this
    cases this
  have hflat : (normalNode n p).flat = [normalNode n p] := by simp [normalNode, normalExpr, Expr.mkReduce, Expr.flat]
  have hC : ∀ a ∈ {a | p ≤ a ∧ a < p + (n + n + n * n)}, ∃ k < n + n + n * n, a = p + k := fun a h => ⟨a - p, by have := h.1; have := h.2; omega, by have := h.1; omega⟩
  obtain ⟨s2, g1, g2, g3⟩ := rounds_cells (e := normalNode n p) (s := s1) (jv := jv) (ja := ja) ⟨⟨node_wf, rfl, trivial⟩, by rw [hflat]; simp, by rw [hflat]; simp⟩ hflat rfl
    (node_alive (by rw [hv1]; exact hv) (by rw [ha1]; exact ha)) hf1 (.inl rfl) rfl (C := {a | p ≤ a ∧ a < p + (n + n + n * n)})
    (fun a h => by obtain ⟨k, hk, rfl⟩ := hC a h; rw [hv1]; exact hv k hk) (fun a h => by obtain ⟨k, hk, rfl⟩ := hC a h; rw [ha1]; exact ha k hk)
    (m0 := fun a => normalVals n xs ms r (a - p)) (d := fun a => normalAdd n xs ms r (a - p)) (f := Real.log (mvNormalKernel (covMat n r) (fun i => ms i) fun i => xs i))
    (fun m hm => by
      have hm' : ∀ k < n + n + n * n, m (p + k) = normalVals n xs ms r k := fun k hk => by rw [hm (p + k) ⟨by omega, by omega⟩, Nat.add_sub_cancel_left]
      refine ⟨node_denote hm', fun A a h => ?_⟩
      obtain ⟨k, hk, rfl⟩ := hC a h
      rw [Nat.add_sub_cancel_left, ← node_grad hm' hk]
      rfl) N _ ⟨fun _ h => h, fun _ h => h⟩ (fun a h => by obtain ⟨k, hk, rfl⟩ := hC a h; rw [hbv k hk, Nat.add_sub_cancel_left])
  have hread : s2.readA (some p) (n + n + n * n) = some (trunc (n + n + n * n) fun k => s2.adj (p + k)) := by
    rw [St.readA, readCells, if_pos]
    · rfl
    · intro k hk
      rw [g2]
      show (s1.aok (p + k) || _) = true
      rw [ha1, ha k hk, Bool.true_or]
  have hw' : s0.writeV (matVar n n (p + n + n) (p + n + n)).val (n * n) (covEntry n r) = some s1 := hw
  have g1' : rounds (bindExpr (normalExpr (vecVar n p p) (vecVar n (p + n) (p + n)) (matVar n n (p + n + n) (p + n + n))) qv qa jv ja s1).1 N
    (bindExpr (normalExpr (vecVar n p p) (vecVar n (p + n) (p + n)) (matVar n n (p + n + n) (p + n + n))) qv qa jv ja s1).2 = _ := g1
  simp only [normalBench, ← hs0, views_eq hv ha, Option.bind_eq_bind, Option.bind_some, hw', g1', hread]
  congr 2
  refine List.map_congr_left fun k hk => ?_
  have hk := List.mem_range.1 hk
  rw [trunc_of_lt hk, g3 (p + k) ⟨by omega, by omega⟩, hba k hk, Nat.add_sub_cancel_left, zero_add]

end

end Benchmark

end FastAD
