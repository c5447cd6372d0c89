import Verif.Proof.Grad
import Verif.Proof.Deriv
import Verif.Proof.StatGrad
import Verif.Spec.Regular

/-!
# `grad` is the vector-Jacobian product of `denote`

The variables are given as functions `ρ x` of a parameter `x` in a normed space; `δ a` is the derivative, at `x0`, of the
value belonging to adjoint cell `a`.
-/

open scoped Topology

namespace FastAD

noncomputable section

variable {E : Type} [NormedAddCommGroup E] [NormedSpace ℝ E] [HasInf ℝ] [LinAlg ℝ]
set_option linter.unusedSectionVars false

/-- the placeholders assigned by a sequence of assignments have, in the stores `F x`, the derivatives recorded for their adjoint cells -/
def Expr.PhDer (F : E → ℕ → ℝ) (δ : ℕ → E →L[ℝ] ℝ) (x0 : E) : Expr ℝ → Prop
  | .eq v _ _ => ∀ k < v.size, HasFDerivAt (fun x => F x (addr v.val + k)) (δ (addr v.adj + k)) x0
  | .glue l r _ => l.PhDer F δ x0 ∧ r.PhDer F δ x0
  | _ => True

mutual
/-- Every cell of every variable leaf is differentiable at `x0` with the derivative recorded for its adjoint cell;
the cells of constant views do not vary.  In the result of a block this is required of the store after the assignments, for any derivatives `δ'` which fit the placeholders. -/
def Expr.Leaves : Expr ℝ → (E → ℕ → ℝ) → (ℕ → E →L[ℝ] ℝ) → E → Prop
  | .var v, ρ, δ, x0 => ∀ k < v.size, HasFDerivAt (fun x => ρ x (addr v.val + k)) (δ (addr v.adj + k)) x0
  | .const _ _, _, _, _ => True
  | .cview sh p, ρ, _, x0 => ∀ k < sh.size, ∀ᶠ x in 𝓝 x0, ρ x (addr p + k) = ρ x0 (addr p + k)
  | .unary _ e _, ρ, δ, x0 => e.Leaves ρ δ x0
  | .binary _ l r _, ρ, δ, x0 => l.Leaves ρ δ x0 ∧ r.Leaves ρ δ x0
  | .pow _ e _, ρ, δ, x0 => e.Leaves ρ δ x0
  | .prodElem e _ _, ρ, δ, x0 => e.Leaves ρ δ x0
  | .transpose e _, ρ, δ, x0 => e.Leaves ρ δ x0
  | .dot l r _, ρ, δ, x0 => l.Leaves ρ δ x0 ∧ r.Leaves ρ δ x0
  | .sumIter es _, ρ, δ, x0 => es.Leavess ρ δ x0
  | .prodIter es _, ρ, δ, x0 => es.Leavess ρ δ x0
  | .reduce _ es _, ρ, δ, x0 => es.Leavess ρ δ x0
  | .ifElse c a b _, ρ, δ, x0 => c.Leaves ρ δ x0 ∧ a.Leaves ρ δ x0 ∧ b.Leaves ρ δ x0
  | .glue l r _, ρ, δ, x0 => l.LeavesS ρ δ x0 ∧ Disjoint l.readsA l.defsA ∧
      ∀ δ' : ℕ → E →L[ℝ] ℝ, (∀ a ∉ l.defsA, δ' a = δ a) → l.PhDer (fun x => l.exec (ρ x)) δ' x0 →
        r.Leaves (fun x => l.exec (ρ x)) δ' x0
  | _, _, _, _ => True
/-- the same for the right-hand sides of a sequence of assignments, which assigns no placeholder twice -/
def Expr.LeavesS : Expr ℝ → (E → ℕ → ℝ) → (ℕ → E →L[ℝ] ℝ) → E → Prop
  | .eq _ e _, ρ, δ, x0 => e.Leaves ρ δ x0
  | .glue l r _, ρ, δ, x0 => l.LeavesS ρ δ x0 ∧ Disjoint l.readsA l.defsA ∧ Disjoint l.defs r.defs ∧ Disjoint l.defsA r.defsA ∧
      ∀ δ' : ℕ → E →L[ℝ] ℝ, (∀ a ∉ l.defsA, δ' a = δ a) → l.PhDer (fun x => l.exec (ρ x)) δ' x0 →
        r.LeavesS (fun x => l.exec (ρ x)) δ' x0
  | _, _, _, _ => True
/-- the same for a list -/
def Exprs.Leavess : Exprs ℝ → (E → ℕ → ℝ) → (ℕ → E →L[ℝ] ℝ) → E → Prop
  | .nil, _, _, _ => True
  | .cons e es, ρ, δ, x0 => e.Leaves ρ δ x0 ∧ es.Leavess ρ δ x0
end

/-- `D k` is the derivative of coefficient `k`, and pairing the adjoint increments with the derivatives of the variables gives the
seed-weighted sum of the `D k`. -/
structure CalcOk (e : Expr ℝ) (ρ : E → ℕ → ℝ) (δ : ℕ → E →L[ℝ] ℝ) (x0 : E) (D : ℕ → E →L[ℝ] ℝ) : Prop where
  deriv : ∀ k < e.size, HasFDerivAt (fun x => e.denote (ρ x) k) (D k) x0
  adj : ∀ (seed : ℕ → ℝ) (V : Finset ℕ), e.readsA ⊆ V →
    ∑ a ∈ V, e.grad (ρ x0) seed a • δ a = ∑ k ∈ Finset.range e.size, seed k • D k

def CalcClaim (x0 : E) (e : Expr ℝ) : Prop :=
  ∀ (ρ : E → ℕ → ℝ) (δ : ℕ → E →L[ℝ] ℝ), e.NWF → e.Leaves ρ δ x0 → e.Reg ρ x0 → ∃ D, CalcOk e ρ δ x0 D

/-- The derivatives `δ'` after a sequence of assignments: those of the placeholders are correct, and pairing the adjoint increments with the derivatives before gives the
adjoints of the placeholders paired with theirs. -/
structure CalcSOk (e : Expr ℝ) (ρ : E → ℕ → ℝ) (δ : ℕ → E →L[ℝ] ℝ) (x0 : E) (δ' : ℕ → E →L[ℝ] ℝ) : Prop where
  off : ∀ a ∉ e.defsA, δ' a = δ a
  deriv : e.PhDer (fun x => e.exec (ρ x)) δ' x0
  adj : ∀ (A : ℕ → ℝ) (V W : Finset ℕ), e.readsA ⊆ V → (W : Set ℕ) = e.defsA →
    ∑ a ∈ V, e.gradS (ρ x0) A a • δ a = ∑ a ∈ W, A a • δ' a

def CalcStm (x0 : E) (e : Expr ℝ) : Prop :=
  ∀ (ρ : E → ℕ → ℝ) (δ : ℕ → E →L[ℝ] ℝ), e.NStm → e.LeavesS ρ δ x0 → e.RegS ρ x0 → ∃ δ', CalcSOk e ρ δ x0 δ'

omit [HasInf ℝ] [LinAlg ℝ] in
theorem sum_var (δ : ℕ → E →L[ℝ] ℝ) (q n : ℕ) (seed : ℕ → ℝ) (V : Finset ℕ) (hV : ∀ k < n, q + k ∈ V) :
    ∑ a ∈ V, (if q ≤ a ∧ a < q + n then seed (a - q) else 0) • δ a =
      ∑ k ∈ Finset.range n, seed k • δ (q + k) := by
  simp only [ite_smul, zero_smul]
  rw [← Finset.sum_filter]
  symm
  refine Finset.sum_nbij' (fun k => q + k) (fun a => a - q) ?_ ?_ ?_ ?_ ?_
  · intro k hk
    have := Finset.mem_range.1 hk
    simp [hV k this, this]
  · intro a ha
    have := (Finset.mem_filter.1 ha).2
    rw [Finset.mem_range]; omega
  · intro k _; simp
  · intro a ha
    have := (Finset.mem_filter.1 ha).2
    omega
  · intro k _; simp

omit [HasInf ℝ] [LinAlg ℝ] in
/-- the seed of an operand of a coefficient-wise operation, paired with derivatives of the operand -/
theorem sum_collapse (D : ℕ → E →L[ℝ] ℝ) {e w : Shape} (hok : e.Ok) (hwok : w.Ok)
    (hd : e.isScl = true ∨ sameDims e w) (f : ℕ → ℝ) :
    ∑ k ∈ Finset.range e.size, collapse e w w.size f k • D k = ∑ k ∈ Finset.range w.size, f k • D (e.bidx k) := by
  by_cases he : e.isScl = true
  · by_cases hw : w.isScl = true
    · simp [collapse, he, hw, hok.size_scl he, hwok.size_scl hw, Shape.bidx]
    · simp only [collapse, he, hok.size_scl he, Shape.bidx, hw, if_true, Bool.not_false, Bool.and_self,
        Finset.range_one, Finset.sum_singleton]
      simp [sumN_eq, Finset.sum_smul]
  · have hs := hd.resolve_left he
    have : e.size = w.size := by simp [Shape.size, hs.1, hs.2]
    simp [collapse, he, this, Shape.bidx]

theorem BOp.bl_linear (op : BOp) (g x y f : ℝ) : op.bl g x y f = g * op.bl 1 x y f := by
  cases op <;> simp [BOp.bl, div_eq_mul_inv]

theorem BOp.br_linear (op : BOp) (g x y f : ℝ) : op.br g x y f = g * op.br 1 x y f := by
  cases op <;> simp [BOp.br] <;> ring

/-- the derivative of an arithmetic operator applied to differentiable operands -/
theorem BOp.hasFDerivAt (op : BOp) (hop : op.isComparison = false) (scl : Bool) {f g : E → ℝ} {f' g' : E →L[ℝ] ℝ}
    {x0 : E} (hf : HasFDerivAt f f' x0) (hg : HasFDerivAt g g' x0) (h0 : op = .div → g x0 ≠ 0) :
    HasFDerivAt (fun x => op.real scl (f x) (g x))
      (op.bl 1 (f x0) (g x0) (op.real scl (f x0) (g x0)) • f' +
        op.br 1 (f x0) (g x0) (op.real scl (f x0) (g x0)) • g') x0 := by
  cases op <;> simp only [BOp.isComparison, reduceCtorEq] at hop
  · simp only [BOp.real, BOp.bl, BOp.br, one_smul]
    exact hf.add hg
  · simp only [BOp.real, BOp.bl, BOp.br, one_smul]
    rw [show ((-1 : ℝ) • g') = -g' by ext v; simp, ← sub_eq_add_neg]
    exact hf.sub hg
  · simp only [BOp.real, BOp.bl, BOp.br, one_mul]
    rw [add_comm]
    exact hf.mul hg
  · have hne := h0 rfl
    simp only [BOp.real, BOp.bl, BOp.br]
    have h1 := hf.mul (((hasDerivAt_inv hne).comp_hasFDerivAt x0 hg))
    simp only [div_eq_mul_inv]
    convert! h1 using 1
    ext v
    simp
    field_simp
    ring

/-- value of a list reduction and its derivative: sums -/
theorem hasFDerivAt_listSum (ρ : E → ℕ → ℝ) (x0 : E) (D : Expr ℝ → ℕ → E →L[ℝ] ℝ) (k : ℕ) (es : Exprs ℝ)
    (h : ∀ e ∈ es.toList, HasFDerivAt (fun x => e.denote (ρ x) k) (D e k) x0) :
    HasFDerivAt (fun x => ((es.denotes (ρ x)).map (fun y => y.2 k)).sum) (es.toList.map (fun e => D e k)).sum x0 := by
  induction es using Exprs.rec (motive_1 := fun _ => True) with
  | nil => simpa [Exprs.denotes, Exprs.toList] using hasFDerivAt_const (0 : ℝ) x0
  | cons e es _ ih =>
    simp only [Exprs.denotes, Exprs.toList, List.map_cons, List.sum_cons]
    exact (h e (by simp [Exprs.toList])).add (ih fun y hy => h y (by simp [Exprs.toList, hy]))
  | _ => trivial

/-- pairing of the seeds of an expression list with derivatives -/
def pairList (D : Expr ℝ → ℕ → E →L[ℝ] ℝ) (sd : ℕ → Option (ℕ → ℝ)) : List (Expr ℝ) → ℕ → E →L[ℝ] ℝ
  | [], _ => 0
  | e :: es, i => (match sd i with | some g => ∑ k ∈ Finset.range e.size, g k • D e k | none => 0) +
      pairList D sd es (i + 1)

omit [HasInf ℝ] [LinAlg ℝ] in
theorem pairList_shift (D : Expr ℝ → ℕ → E →L[ℝ] ℝ) (sd : ℕ → Option (ℕ → ℝ)) (es : List (Expr ℝ)) (i : ℕ) :
    pairList D sd es (i + 1) = pairList D (fun j => sd (j + 1)) es i := by
  induction es generalizing i with
  | nil => rfl
  | cons e es ih => simp only [pairList]; rw [ih (i + 1)]

theorem grads_pair (ρ : E → ℕ → ℝ) (δ : ℕ → E →L[ℝ] ℝ) (x0 : E) (D : Expr ℝ → ℕ → E →L[ℝ] ℝ) (es : Exprs ℝ)
    (h : ∀ e ∈ es.toList, CalcOk e ρ δ x0 (D e)) (sd : ℕ → Option (ℕ → ℝ)) (i : ℕ) (V : Finset ℕ)
    (hV : es.readsAs ⊆ V) :
    ∑ a ∈ V, es.grads (ρ x0) sd i a • δ a = pairList D sd es.toList i := by
  induction es using Exprs.rec (motive_1 := fun _ => True) generalizing i with
  | nil => simp [Exprs.grads, Exprs.toList, pairList]
  | cons e es _ ih =>
    simp only [Exprs.grads, Exprs.toList, pairList, add_smul, Finset.sum_add_distrib]
    rw [ih (fun y hy => h y (by simp [Exprs.toList, hy])) (i + 1)
      (fun a ha => hV (by simp only [Exprs.readsAs]; exact Or.inr ha))]
    congr 1
    cases sd i with
    | none => simp
    | some g =>
      exact (h e (by simp [Exprs.toList])).adj g V (fun a ha => hV (by simp only [Exprs.readsAs]; exact Or.inl ha))
  | _ => trivial

/-- derivative of a product of list elements -/
def prodDeriv (D : Expr ℝ → ℕ → E →L[ℝ] ℝ) (xs : List (Shape × (ℕ → ℝ))) (k : ℕ) : List (Expr ℝ) → ℕ → E →L[ℝ] ℝ
  | [], _ => 0
  | e :: es, i => prodOthers xs i k • D e k + prodDeriv D xs k es (i + 1)

omit [HasInf ℝ] [LinAlg ℝ] in
theorem prodDeriv_shift (D : Expr ℝ → ℕ → E →L[ℝ] ℝ) (x : Shape × (ℕ → ℝ)) (xs : List (Shape × (ℕ → ℝ))) (k : ℕ)
    (es : List (Expr ℝ)) (i : ℕ) :
    prodDeriv D (x :: xs) k es (i + 1) = x.2 k • prodDeriv D xs k es i := by
  induction es generalizing i with
  | nil => simp [prodDeriv]
  | cons e es ih =>
    simp only [prodDeriv]
    rw [ih (i + 1), smul_add, smul_smul]
    simp [prodOthers]

theorem hasFDerivAt_listProd (ρ : E → ℕ → ℝ) (x0 : E) (D : Expr ℝ → ℕ → E →L[ℝ] ℝ) (k : ℕ) (es : Exprs ℝ)
    (h : ∀ e ∈ es.toList, HasFDerivAt (fun x => e.denote (ρ x) k) (D e k) x0) :
    HasFDerivAt (fun x => ((es.denotes (ρ x)).map (fun y => y.2 k)).prod)
      (prodDeriv D (es.denotes (ρ x0)) k es.toList 0) x0 := by
  induction es using Exprs.rec (motive_1 := fun _ => True) with
  | nil => simpa [Exprs.denotes, Exprs.toList, prodDeriv] using hasFDerivAt_const (1 : ℝ) x0
  | cons e es _ ih =>
    have ih := ih fun y hy => h y (by simp [Exprs.toList, hy])
    have he := h e (by simp [Exprs.toList])
    simp only [Exprs.denotes, Exprs.toList, List.map_cons, List.prod_cons, prodDeriv]
    rw [prodDeriv_shift, add_comm]
    exact he.mul ih
  | _ => trivial

omit [HasInf ℝ] [LinAlg ℝ] in
theorem pairList_prod (D : Expr ℝ → ℕ → E →L[ℝ] ℝ) (xs : List (Shape × (ℕ → ℝ))) (seed : ℕ → ℝ) (N : ℕ)
    (es : List (Expr ℝ)) (i : ℕ) (h : ∀ e ∈ es, e.size = N) :
    pairList D (fun i => some fun k => seed k * prodOthers xs i k) es i =
      ∑ k ∈ Finset.range N, seed k • prodDeriv D xs k es i := by
  induction es generalizing i with
  | nil => simp [pairList, prodDeriv]
  | cons e es ih =>
    simp only [pairList, prodDeriv, smul_add, Finset.sum_add_distrib]
    rw [ih (i + 1) (fun y hy => h y (by simp [hy])), h e (by simp)]
    simp only [smul_smul]

omit [HasInf ℝ] [LinAlg ℝ] in
theorem pairList_sum (D : Expr ℝ → ℕ → E →L[ℝ] ℝ) (seed : ℕ → ℝ) (N : ℕ)
    (es : List (Expr ℝ)) (i : ℕ) (h : ∀ e ∈ es, e.size = N) :
    pairList D (fun _ => some seed) es i =
      ∑ k ∈ Finset.range N, seed k • (es.map (fun e => D e k)).sum := by
  induction es generalizing i with
  | nil => simp [pairList]
  | cons e es ih =>
    simp only [pairList, List.map_cons, List.sum_cons, smul_add, Finset.sum_add_distrib]
    rw [ih (i + 1) (fun y hy => h y (by simp [hy])), h e (by simp)]

/-! ### determinants -/

/-- the decomposition is applied within its precondition -/
def Decomp.Ok (p : Decomp) (sh : Shape) (f : ℕ → ℝ) : Prop :=
  match p with
  | .lu => True
  | .ldlt => LinAlg.ldltOk sh.rows (trunc sh.size f) = true ∧ (toMat sh.rows f).IsSymm
  | .llt => LinAlg.lltOk sh.rows (trunc sh.size f) = true ∧ (toMat sh.rows f).IsSymm

/-- the mathematical determinant of the operand -/
theorem det_real_eq [LawfulLinAlg] (p : Decomp) (sh : Shape) (hsq : sh.rows = sh.cols) (f : ℕ → ℝ)
    (h : p.Ok sh f) :
    (RedOp.det p).real sh f = (toMat sh.rows f).det ∧
    (RedOp.logDet p).real sh f = Real.log |(toMat sh.rows f).det| := by
  have hsz : sh.size = sh.rows * sh.rows := by rw [Shape.size, ← hsq]
  cases p with
  | lu =>
    simp only [RedOp.real, LawfulLinAlg.det_eq]
    rw [hsz, toMat_trunc]
    exact ⟨rfl, rfl⟩
  | ldlt =>
    obtain ⟨h1, h2⟩ := h
    simp only [RedOp.real, LawfulLinAlg.symDet_eq _ _ h1]
    rw [hsz, symMat_eq _ _ (by rw [toMat_trunc]; exact h2), toMat_trunc]
    exact ⟨rfl, rfl⟩
  | llt =>
    obtain ⟨h1, h2⟩ := h
    have h3 := LawfulLinAlg.lltDetL_sq _ _ h1
    have h4 := LawfulLinAlg.lltDetL_pos _ _ h1
    simp only [RedOp.real]
    rw [hsz] at h3 h4 ⊢
    rw [symMat_eq _ _ (by rw [toMat_trunc]; exact h2), toMat_trunc] at h3
    rw [← h3, sq]
    refine ⟨rfl, ?_⟩
    rw [abs_mul, Real.log_mul (by positivity) (by positivity)]
    ring

/-- the cached inverse-transpose -/
theorem invT_eq [LawfulLinAlg] (p : Decomp) (sh : Shape) (hsq : sh.rows = sh.cols) (f : ℕ → ℝ)
    (h : p.Ok sh f)
    (hdet : (toMat sh.rows f).det ≠ 0) (i j : Fin sh.rows) :
    invT p sh.rows (trunc sh.size f) (i.1 + j.1 * sh.rows) = (toMat sh.rows f)⁻¹ j i := by
  have hsz : sh.size = sh.rows * sh.rows := by rw [Shape.size, ← hsq]
  simp only [Decomp.Ok] at h
  rw [hsz] at h ⊢
  cases p with
  | lu =>
    have := LawfulLinAlg.inv_eq sh.rows (trunc (sh.rows * sh.rows) f) (by rw [toMat_trunc]; exact hdet)
    rw [toMat_trunc] at this
    rw [← this]
    simp only [invT, transposed, toMat, Matrix.of_apply]
    rw [mod_idx i.2, div_idx i.2]
  | ldlt =>
    obtain ⟨h1, h2⟩ := h
    have h3 : symMat sh.rows (trunc (sh.rows * sh.rows) f) = toMat sh.rows f := by
      rw [symMat_eq _ _ (by rw [toMat_trunc]; exact h2), toMat_trunc]
    have := LawfulLinAlg.symInv_eq sh.rows (trunc (sh.rows * sh.rows) f) (Or.inl h1) (by rw [h3]; exact hdet)
    rw [h3] at this
    have h4 : (toMat sh.rows f)⁻¹.IsSymm := by
      rw [Matrix.IsSymm, Matrix.transpose_nonsing_inv, h2]
    rw [← h4.apply, ← this]
    rfl
  | llt =>
    obtain ⟨h1, h2⟩ := h
    have h3 : symMat sh.rows (trunc (sh.rows * sh.rows) f) = toMat sh.rows f := by
      rw [symMat_eq _ _ (by rw [toMat_trunc]; exact h2), toMat_trunc]
    have := LawfulLinAlg.symInv_eq sh.rows (trunc (sh.rows * sh.rows) f) (Or.inr h1) (by rw [h3]; exact hdet)
    rw [h3] at this
    have h4 : (toMat sh.rows f)⁻¹.IsSymm := by
      rw [Matrix.IsSymm, Matrix.transpose_nonsing_inv, h2]
    rw [← h4.apply, ← this]
    rfl

/-- `valid()` holds on non-singular operands -/
theorem valid_det [LawfulLinAlg] (p : Decomp) (sh : Shape) (hsq : sh.rows = sh.cols) (f : ℕ → ℝ)
    (h : p.Ok sh f)
    (hdet : (toMat sh.rows f).det ≠ 0) :
    (RedOp.det p).valid sh.rows (trunc sh.size f) = true ∧ (RedOp.logDet p).valid sh.rows (trunc sh.size f) = true := by
  have hsz : sh.size = sh.rows * sh.rows := by rw [Shape.size, ← hsq]
  have h0 := (det_real_eq p sh hsq f h).1
  simp only [Decomp.Ok] at h
  rw [hsz] at h ⊢
  cases p with
  | lu =>
    simp only [RedOp.valid, LawfulLinAlg.invertible_iff, toMat_trunc]
    exact ⟨hdet, hdet⟩
  | ldlt =>
    simp only [RedOp.real] at h0
    rw [hsz] at h0
    simp only [RedOp.valid, h0, h.1, Bool.and_true]
    simp [Fn.beq, hdet]
  | llt => exact ⟨h.1, h.1⟩

/-- Jacobi's formula for the operand of a determinant node, in column-major coordinates -/
theorem hasFDerivAt_detCol {X : E → ℕ → ℝ} {D : ℕ → E →L[ℝ] ℝ} {x0 : E} (d : ℕ)
    (h : ∀ k < d * d, HasFDerivAt (fun x => X x k) (D k) x0) :
    HasFDerivAt (fun x => (toMat d (X x)).det)
      (∑ i : Fin d, ∑ j : Fin d, (toMat d (X x0)).adjugate j i • D (i.1 + j.1 * d)) x0 := by
  refine hasFDerivAt_det (A := fun x => toMat d (X x)) (A' := fun i j => D (i.1 + j.1 * d)) fun i j => ?_
  have hi := i.2
  have hj := j.2
  exact h _ (by nlinarith)

theorem RedOp.RegAt.decomp {p : Decomp} {sh : Shape} {X : E → ℕ → ℝ} {x0 : E} [LawfulLinAlg]
    (hsq : sh.rows = sh.cols) (h : (RedOp.det p).RegAt sh X x0) :
    (toMat sh.rows (X x0)).det ≠ 0 ∧ ∀ᶠ x in 𝓝 x0, p.Ok sh (X x) := by
  cases p with
  | lu => exact ⟨h, Filter.Eventually.of_forall fun _ => trivial⟩
  | ldlt => exact h
  | llt =>
    refine ⟨?_, h⟩
    have h1 := h.self_of_nhds
    have h2 := (det_real_eq .llt sh hsq (X x0) h1).1
    rw [← h2]
    have := LawfulLinAlg.lltDetL_pos _ _ h1.1
    simp only [RedOp.real]
    positivity

theorem StatOp.RegAt.congr {o : StatOp} {n : ℕ} {V W : E → Args ℝ} {x0 : E} (h : o.RegAt n V x0) (hag : ∀ x, o.Agree n (W x) (V x)) : o.RegAt n W x0 := by
  obtain ⟨h1, h2, h3, h4⟩ := h
  refine ⟨h1, ?_, ?_, fun hd => ?_⟩
  · filter_upwards [h2] with x hx using (hag x).congr.2.2.2.1.2 hx
  · refine h3.imp (fun h => ⟨(hag x0).congr.1.2 h.1, (hag x0).congr.2.2.2.2.2 h.2⟩) fun h => ⟨h.1, ?_⟩
    filter_upwards [h.2] with x hx h'
    exact hx ((hag x).congr.1.1 h')
  · filter_upwards [h4 hd] with x hx i hi
    have hm : Slot.x ∈ o.slots := by cases o <;> simp [StatOp.slots]
    have e1 := hag x .x hm i hi
    have e2 := hag x0 .x hm i hi
    simp only [Args.get] at e1 e2
    rw [e1, e2]
    exact hx i hi

/-- constant operands do not vary -/
theorem const_leaf {e : Expr ℝ} {ρ : E → ℕ → ℝ} {δ : ℕ → E →L[ℝ] ℝ} {x0 : E} (h : e.argKind = .const) (hl : e.Leaves ρ δ x0) (i : ℕ) (hi : i < e.size) :
    ∀ᶠ x in 𝓝 x0, e.denote (ρ x) i = e.denote (ρ x0) i := by
  cases e <;> simp [Expr.argKind] at h
  · exact .of_forall fun _ => rfl
  · exact hl i hi

theorem leaves_mem {es : Exprs ℝ} {ρ : E → ℕ → ℝ} {δ : ℕ → E →L[ℝ] ℝ} {x0 : E} (hl : es.Leavess ρ δ x0) : ∀ e ∈ es.toList, e.Leaves ρ δ x0 := by
  induction es using Exprs.rec (motive_1 := fun _ => True) with
  | nil => intro e he; simp [Exprs.toList] at he
  | cons e es _ ih =>
    intro y hy
    simp only [Exprs.toList, List.mem_cons] at hy
    obtain rfl | hy := hy
    · exact hl.1
    · exact ih hl.2 y hy
  | _ => trivial

theorem toList_ofList (l : List (Expr ℝ)) : (Exprs.ofList l).toList = l := by
  induction l with
  | nil => rfl
  | cons e l ih => simp only [Exprs.ofList, Exprs.toList, ih]

/-- log-density nodes -/
theorem stat_calc [LawfulLinAlg] {o : StatOp} {k : Kinds} {es : Exprs ℝ} {w : View} {ρ : E → ℕ → ℝ} {δ : ℕ → E →L[ℝ] ℝ} {x0 : E} (hsh : w.shape = .scl)
    (hfit : o.Fits k es) (hl : es.Leavess ρ δ x0) (hr : (RedOp.stat o k).RegsAt (fun x => es.denotes (ρ x)) x0) {D : Expr ℝ → ℕ → E →L[ℝ] ℝ}
    (hD : ∀ e ∈ es.toList, CalcOk e ρ δ x0 (D e)) : ∃ D', CalcOk (.reduce (.stat o k) es w) ρ δ x0 D' := by
  obtain ⟨n, op, hop, rfl⟩ := hfit.ops
  have hmem : ∀ s ∈ o.slots, op s ∈ (Exprs.ofList (o.slots.map op)).toList := fun s hs => by rw [toList_ofList]; exact List.mem_map_of_mem hs
  have hden : ∀ x, (Exprs.ofList (o.slots.map op)).denotes (ρ x) = o.slots.map fun s => ((op s).shape, (op s).denote (ρ x)) := by
    intro x; rw [denotes_ofList, List.map_map]; rfl
  obtain ⟨n', V, hV, hreg⟩ := hr o k rfl
  have hVn : n' = n ∧ ∀ x, V x = opArgs o.discrete fun s => (op s).denote (ρ x) := by
    have : ∀ x, n = n' ∧ (opArgs o.discrete fun s => (op s).denote (ρ x)) = V x := by
      intro x
      have h1 := hV x
      simp only [hden] at h1
      rw [statArgs_ops hop] at h1
      simpa using h1
    exact ⟨(this x0).1.symm, fun x => (this x).2.symm⟩
  obtain ⟨rfl, hVe⟩ := hVn
  obtain rfl : V = fun x => opArgs o.discrete fun s => (op s).denote (ρ x) := funext hVe
  have hag : ∀ x, o.Agree n' (opArgs o.discrete fun s => trunc (op s).shape.size ((op s).denote (ρ x))) (opArgs o.discrete fun s => (op s).denote (ρ x)) :=
    fun x => StatOp.Agree.of_trunc hop (ρ x)
  obtain ⟨c, D', h1, h2, h3⟩ := StatOp.hasFDerivAt (k := k) hop.sound (hreg.congr hag) (D := fun s i => D (op s) i)
    (fun s hs i hi => by
      refine ((hD _ (hmem s hs)).deriv i (by rw [Expr.size, hop.shape s hs]; exact hi)).congr_of_eventuallyEq (.of_forall fun x => ?_)
      dsimp only
      rw [opArgs_get _ _ hs, trunc_of_lt (by rw [hop.shape s hs]; exact hi)])
    (fun s hs hk i hi => by
      have hi' : i < (op s).shape.size := by rw [hop.shape s hs]; exact hi
      simp only [opArgs_get _ _ hs, trunc_of_lt hi']
      exact const_leaf (by rw [hop.kind s hs, hk]) (leaves_mem hl _ (hmem s hs)) i hi')
  have hsz : (Expr.reduce (.stat o k) (Exprs.ofList (o.slots.map op)) w).size = 1 := by
    simp only [Expr.size, Expr.shape, Expr.view]; rw [hsh]; rfl
  have hlen : ∀ f : Slot → Shape × (ℕ → ℝ), (o.slots.map f).length ≠ 1 := by intro f; rw [o.slots_eq]; cases o.discrete <;> simp
  refine ⟨fun _ => D', fun j _ => ?_, fun seed A hA => ?_⟩
  · refine h2.congr_of_eventuallyEq (.of_forall fun x => ?_)
    simp only [Expr.denote]
    rw [hden, reals_stat hop, (hag x).congr.2.2.1]
  · simp only [Expr.grad]
    rw [grads_pair ρ δ x0 D _ hD _ 0 A hA, hsz, Finset.range_one, Finset.sum_singleton, ← h3 (seed 0), toList_ofList, hden, List.map_map]
    have hb : ∀ f i, (RedOp.stat o k).bmap (seed 0) (o.slots.map ((fun x : Shape × (ℕ → ℝ) => (x.1, trunc x.1.size x.2)) ∘ fun s => ((op s).shape, (op s).denote (ρ x0)))) f i =
        (((o.node k n').beval c (opArgs o.discrete fun s => trunc (op s).shape.size ((op s).denote (ρ x0))) (seed 0)).lookup (slotOf i)) := by
      intro f i
      have e1 : (o.slots.map ((fun x : Shape × (ℕ → ℝ) => (x.1, trunc x.1.size x.2)) ∘ fun s => ((op s).shape, (op s).denote (ρ x0)))) =
        o.slots.map fun s => ((op s).shape, trunc (op s).shape.size ((op s).denote (ρ x0))) := rfl
      rw [e1, bmap_stat _ (hlen _), StatOp.bmap, statArgs_ops hop]
      simp only [Option.bind_eq_bind, Option.bind_some, h1]
    simp only [hb]
    generalize (o.node k n').beval c (opArgs o.discrete fun s => trunc (op s).shape.size ((op s).denote (ρ x0))) (seed 0) = l
    have hdim : ∀ s ∈ o.slots, o.dim n' s = (op s).size := fun s hs => by rw [StatOp.dim, if_pos hs, Expr.size, hop.shape s hs]
    have hpart : ∀ s ∈ o.slots, (match l.lookup s with | some g => ∑ i ∈ Finset.range (op s).size, g i • D (op s) i | none => 0) =
        ∑ i ∈ Finset.range (o.dim n' s), ((l.lookup s).elim 0 fun f => f i) • D (op s) i := by
      intro s hs
      rw [hdim s hs]
      cases l.lookup s <;> simp
    have hx : Slot.x ∈ o.slots := by cases o <;> simp [StatOp.slots]
    have ha : Slot.a ∈ o.slots := by cases o <;> simp [StatOp.slots]
    rw [chain, ← hpart .x hx, ← hpart .a ha, o.slots_eq]
    cases hd : o.discrete with
    | true =>
      have hb : Slot.b ∉ o.slots := by rw [o.slots_eq, hd]; simp
      simp only [if_true, List.map_cons, List.map_nil, pairList, slotOf, StatOp.dim, hb, if_false, Finset.range_zero, Finset.sum_empty, add_zero]
    | false =>
      have hb : Slot.b ∈ o.slots := by rw [o.slots_eq, hd]; simp
      rw [← hpart .b hb]
      simp only [Bool.false_eq_true, if_false, List.map_cons, List.map_nil, pairList, slotOf, add_zero, add_assoc]

/-- adjoint cells of the placeholders of a sequence of assignments -/
def Expr.defsF : Expr ℝ → Finset ℕ
  | .eq v _ _ => (Finset.range v.size).image (addr v.adj + ·)
  | .glue l r _ => l.defsF ∪ r.defsF
  | _ => ∅

theorem Expr.coe_defsF (e : Expr ℝ) : (e.defsF : Set ℕ) = e.defsA := by
  induction e using Expr.induct with
  | eq v e w =>
    ext a
    simp only [Expr.defsF, Expr.defsA, Finset.coe_image, Finset.coe_range, Set.mem_image, Set.mem_Iio]
    constructor
    · rintro ⟨k, hk, rfl⟩; exact add_mem_rng hk
    · intro h
      have h : addr v.adj ≤ a ∧ a < addr v.adj + v.size := h
      exact ⟨a - addr v.adj, by omega, by omega⟩
  | glue l r w hl hr => simp [Expr.defsF, Expr.defsA, hl, hr]
  | _ => simp [Expr.defsF, Expr.defsA]

theorem calc_stm_eq {x0 : E} {v : View} {e : Expr ℝ} {w : View} (ih : CalcClaim x0 e) : CalcStm x0 (.eq v e w) := by
  classical
  intro ρ δ hwf hl hr
  obtain ⟨hwe, hok, hsh, -⟩ := hwf
  obtain ⟨D, hD, hA⟩ := ih ρ δ hwe hl hr
  have hsz : e.size = v.size := by rw [Expr.size, hsh]; rfl
  refine ⟨fun a => if a ∈ rng v.adj v.size then D (a - addr v.adj) else δ a, ?_, ?_, ?_⟩
  · intro a ha
    exact if_neg ha
  · intro k hk
    dsimp only
    rw [if_pos (add_mem_rng hk), Nat.add_sub_cancel_left]
    refine (hD k (hsz ▸ hk)).congr_of_eventuallyEq (.of_forall fun x => ?_)
    simp only [Expr.exec]
    rw [assign_add hk]
  · intro A V W hV hW
    have hWF : W = (Expr.eq v e w).defsF := Finset.coe_injective (by rw [hW, Expr.coe_defsF])
    subst hWF
    simp only [Expr.gradS, Expr.defsF]
    rw [hA _ V hV, hsz, Finset.sum_image (by intro a _ b _ h; simpa using h)]
    refine Finset.sum_congr rfl fun k hk => ?_
    rw [if_pos (add_mem_rng (Finset.mem_range.1 hk)), Nat.add_sub_cancel_left]

theorem Expr.PhDer.congr {F G : E → ℕ → ℝ} {δ δ' : ℕ → E →L[ℝ] ℝ} {x0 : E} {l : Expr ℝ} (h : l.PhDer F δ x0) (hδ : ∀ a ∈ l.defsA, δ a = δ' a)
    (hF : ∀ x, ∀ c ∈ l.defs, G x c = F x c) : l.PhDer G δ' x0 := by
  induction l using Expr.induct with
  | eq v e w =>
    intro k hk
    rw [← hδ _ (add_mem_rng hk)]
    exact (h k hk).congr_of_eventuallyEq (.of_forall fun x => hF x _ (add_mem_rng hk))
  | glue l r w hl hr =>
    exact ⟨hl h.1 (fun a ha => hδ a (Or.inl ha)) (fun x c hc => hF x c (Or.inl hc)), hr h.2 (fun a ha => hδ a (Or.inr ha)) (fun x c hc => hF x c (Or.inr hc))⟩
  | _ => trivial

/-- pairing of the increments of a block -/
theorem pair_block {l : Expr ℝ} {ρ : E → ℕ → ℝ} {δ δ' : ℕ → E →L[ℝ] ℝ} {x0 : E} (hl : CalcSOk l ρ δ x0 δ') (hdis : Disjoint l.readsA l.defsA)
    (A B : ℕ → ℝ) (V : Finset ℕ) (hV : l.readsA ⊆ V) (R : Set ℕ) (hRV : R \ l.defsA ⊆ V) (hB : ∀ a ∉ R, B a = 0) :
    ∑ a ∈ V, (open Classical in if a ∈ l.defsA then (0 : ℝ) else B a + l.gradS (ρ x0) (fun b => A b + B b) a) • δ a =
      (∑ a ∈ V ∪ l.defsF, B a • δ' a) + ∑ a ∈ l.defsF, A a • δ' a := by
  classical
  have h1 : ∑ a ∈ V, (open Classical in if a ∈ l.defsA then (0 : ℝ) else B a + l.gradS (ρ x0) (fun b => A b + B b) a) • δ a =
      (∑ a ∈ V \ l.defsF, B a • δ' a) + ∑ a ∈ V, l.gradS (ρ x0) (fun b => A b + B b) a • δ a := by
    have h2 : ∑ a ∈ V, l.gradS (ρ x0) (fun b => A b + B b) a • δ a = ∑ a ∈ V \ l.defsF, l.gradS (ρ x0) (fun b => A b + B b) a • δ a := by
      symm
      refine Finset.sum_subset Finset.sdiff_subset fun a ha hna => ?_
      have had : a ∈ l.defsA := by
        rw [← l.coe_defsF]; simpa [ha] using hna
      rw [gradS_support _ _ _ _ (fun h => Set.disjoint_left.1 hdis h had), zero_smul]
    rw [h2, ← Finset.sum_add_distrib]
    rw [← Finset.sum_subset (f := fun a => (if a ∈ l.defsA then (0 : ℝ) else B a + l.gradS (ρ x0) (fun b => A b + B b) a) • δ a)
      (Finset.sdiff_subset (s := V) (t := l.defsF)) fun a ha hna => ?_]
    refine Finset.sum_congr rfl fun a ha => ?_
    · have had : a ∉ l.defsA := by
        rw [← l.coe_defsF]; simpa using (Finset.mem_sdiff.1 ha).2
      rw [if_neg had, hl.off a had, add_smul]
    · have had : a ∈ l.defsA := by
        rw [← l.coe_defsF]; simpa [ha] using hna
      rw [if_pos had, zero_smul]
  rw [h1, hl.adj _ V l.defsF hV l.coe_defsF]
  simp only [add_smul, Finset.sum_add_distrib]
  rw [add_comm (∑ a ∈ l.defsF, A a • δ' a), ← add_assoc]
  congr 1
  rw [← Finset.sum_union Finset.sdiff_disjoint, Finset.sdiff_union_self_eq_union]

theorem calc_glue {x0 : E} {l r : Expr ℝ} {w : View} (ihl : CalcStm x0 l) (ihr : CalcClaim x0 r) : CalcClaim x0 (.glue l r w) := by
  intro ρ δ hwf hl hr
  obtain ⟨δ', h1⟩ := ihl ρ δ hwf.1 hl.1 hr.1
  obtain ⟨D, hD, hA⟩ := ihr _ δ' hwf.2.1 (hl.2.2 δ' h1.off h1.deriv) hr.2
  have hsz : (Expr.glue l r w).size = r.size := by
    simp only [Expr.size, Expr.shape, Expr.view]; rw [hwf.2.2.1]; rfl
  refine ⟨D, fun k hk => ?_, fun seed V hV => ?_⟩
  · exact hD k (hsz ▸ hk)
  · have hV1 : l.readsA ⊆ V := fun a ha => hV (Or.inl ha)
    have hV2 : r.readsA \ l.defsA ⊆ V := fun a ha => hV (Or.inr ha)
    have := pair_block h1 hl.2.1 (fun _ => 0) (r.grad (l.exec (ρ x0)) seed) V hV1 r.readsA hV2 (fun a ha => grad_support _ _ _ _ ha)
    simp only [zero_add, zero_smul, Finset.sum_const_zero, add_zero] at this
    simp only [Expr.grad]
    rw [hsz]
    refine this.trans (hA seed _ fun a ha => ?_)
    rw [Finset.coe_union, l.coe_defsF]
    by_cases had : a ∈ l.defsA
    · exact Or.inr had
    · exact Or.inl (hV2 ⟨ha, had⟩)

theorem calc_stm_glue {x0 : E} {l r : Expr ℝ} {w : View} (ihl : CalcStm x0 l) (ihr : CalcStm x0 r) : CalcStm x0 (.glue l r w) := by
  intro ρ δ hwf hl hr
  obtain ⟨hll, hdis, hdv, hda, hlr⟩ := hl
  obtain ⟨δ1, h1⟩ := ihl ρ δ hwf.1 hll hr.1
  obtain ⟨δ2, h2⟩ := ihr _ δ1 hwf.2.1 (hlr δ1 h1.off h1.deriv) hr.2
  refine ⟨δ2, ?_, ⟨?_, h2.deriv⟩, ?_⟩
  · intro a ha
    have ha : a ∉ l.defsA ∪ r.defsA := ha
    rw [Set.mem_union, not_or] at ha
    rw [h2.off a ha.2, h1.off a ha.1]
  · exact h1.deriv.congr (fun a ha => (h2.off a (Set.disjoint_left.1 hda ha)).symm) fun x c hc =>
      hwf.2.1.exec_off _ (Set.disjoint_left.1 hdv hc)
  · intro A V W hV hW
    have hWF : W = l.defsF ∪ r.defsF := Finset.coe_injective (by rw [hW, Finset.coe_union, l.coe_defsF, r.coe_defsF]; rfl)
    subst hWF
    have hV1 : l.readsA ⊆ V := fun a ha => hV (Or.inl ha)
    have hV2 : r.readsA \ l.defsA ⊆ V := fun a ha => hV (Or.inr ha)
    simp only [Expr.gradS]
    rw [pair_block h1 hdis A _ V hV1 r.readsA hV2 (fun a ha => gradS_support _ _ _ _ ha), h2.adj A _ r.defsF ?_ r.coe_defsF,
      Finset.sum_union ?_, add_comm]
    · congr 1
      refine Finset.sum_congr rfl fun a ha => ?_
      rw [h2.off a (Set.disjoint_left.1 hda (by rw [← l.coe_defsF]; exact ha))]
    · rw [← Finset.disjoint_coe, l.coe_defsF, r.coe_defsF]; exact hda
    · intro a ha
      rw [Finset.coe_union, l.coe_defsF]
      by_cases had : a ∈ l.defsA
      · exact Or.inr had
      · exact Or.inl (hV2 ⟨ha, had⟩)

theorem calc_both [LawfulLinAlg] (x0 : E) (e : Expr ℝ) : CalcClaim x0 e ∧ CalcStm x0 e := by
  have lists : ∀ (es : Exprs ℝ) (ρ : E → ℕ → ℝ) (δ : ℕ → E →L[ℝ] ℝ), (∀ e ∈ es.toList, CalcClaim x0 e ∧ CalcStm x0 e) → es.NWFs → es.Leavess ρ δ x0 → es.Regs ρ x0 →
      ∃ D : Expr ℝ → ℕ → E →L[ℝ] ℝ, ∀ e ∈ es.toList, CalcOk e ρ δ x0 (D e) := by
    intro es ρ δ h hwf hl hr
    have : ∀ e ∈ es.toList, ∃ D, CalcOk e ρ δ x0 D := by
      induction es using Exprs.rec (motive_1 := fun _ => True) with
      | nil => intro e he; simp [Exprs.toList] at he
      | cons e es _ ih =>
        intro y hy
        simp only [Exprs.toList, List.mem_cons] at hy
        rcases hy with rfl | hy
        · exact (h y (by simp [Exprs.toList])).1 ρ δ hwf.1 hl.1 hr.1
        · exact ih (fun z hz => h z (by simp [Exprs.toList, hz])) hwf.2 hl.2 hr.2 y hy
      | _ => trivial
    choose! D hD using this
    exact ⟨D, hD⟩
  induction e using Expr.induct with
  | var v =>
    refine ⟨?_, fun _ _ h => h.elim⟩
    intro ρ δ hwf hl _
    refine ⟨fun k => δ (addr v.adj + k), hl, ?_⟩
    intro seed V hV
    simp only [Expr.grad]
    exact sum_var δ (addr v.adj) v.size seed V fun k hk => hV (by simp only [Expr.readsA]; exact add_mem_rng hk)
  | const sh c =>
    refine ⟨?_, fun _ _ h => h.elim⟩
    intro ρ δ _ _ _
    refine ⟨fun _ => 0, fun k _ => by simpa [Expr.denote] using hasFDerivAt_const (c k) x0, ?_⟩
    intro seed V _
    simp [Expr.grad]
  | cview sh p =>
    refine ⟨?_, fun _ _ h => h.elim⟩
    intro ρ δ _ hl _
    refine ⟨fun _ => 0, fun k hk => ?_, ?_⟩
    · simp only [Expr.denote]
      exact (hasFDerivAt_const (ρ x0 (addr p + k)) x0).congr_of_eventuallyEq (hl k hk)
    · intro seed V _
      simp [Expr.grad]
  | unary op e w ih =>
    refine ⟨?_, fun _ _ h => h.elim⟩
    replace ih := ih.1
    intro ρ δ hwf hl hr
    obtain ⟨D, hD, hA⟩ := ih ρ δ hwf.1 hl hr.1
    have hsz : (Expr.unary op e w).size = e.size := by
      simp only [Expr.size, Expr.shape, Expr.view]; rw [hwf.2.1]; rfl
    refine ⟨fun k => op.bmap 1 (e.denote (ρ x0) k) (op.real (e.denote (ρ x0) k)) • D k, fun k hk => ?_, ?_⟩
    · rw [hsz] at hk
      simp only [Expr.denote]
      exact (op.hasDerivAt (hr.2 k hk)).comp_hasFDerivAt x0 (hD k hk)
    · intro seed V hV
      simp only [Expr.grad]
      rw [hA _ V hV, hsz]
      refine Finset.sum_congr rfl fun k _ => ?_
      rw [smul_smul, UOp.bmap_linear]
      simp [Expr.denote]
  | binary op l r w ihl ihr =>
    refine ⟨?_, fun _ _ h => h.elim⟩
    replace ihl := ihl.1
    replace ihr := ihr.1
    intro ρ δ hwf hl hr
    obtain ⟨hwl, hwr, hwok, hdims, _⟩ := hwf
    simp only [Expr.Reg] at hr
    by_cases hop : op.isComparison = true
    · rw [if_pos hop] at hr
      refine ⟨fun _ => 0, fun k hk => ?_, ?_⟩
      · exact (hasFDerivAt_const ((Expr.binary op l r w).denote (ρ x0) k) x0).congr_of_eventuallyEq (hr k hk)
      · intro seed V _
        simp [Expr.grad, hop]
    · rw [if_neg hop] at hr
      obtain ⟨hrl, hrr, hdiv⟩ := hr
      obtain ⟨Dl, hDl, hAl⟩ := ihl ρ δ hwl hl.1 hrl
      obtain ⟨Dr, hDr, hAr⟩ := ihr ρ δ hwr hl.2 hrr
      have bl : ∀ k < w.size, l.shape.bidx k < l.size := by
        intro k hk
        rcases operand_size hwl.shapeOk hwok hdims.1 with h | h
        · simp [Shape.bidx, h.1, Expr.size, hwl.shapeOk.size_scl h.1]
        · by_cases hs : l.shape.isScl = true
          · simp [Shape.bidx, hs, Expr.size, hwl.shapeOk.size_scl hs]
          · have := hdims.1.resolve_left hs
            simp only [Shape.bidx, hs]
            simp only [Expr.size, Shape.size, this.1, this.2]
            exact hk
      have br : ∀ k < w.size, r.shape.bidx k < r.size := by
        intro k hk
        by_cases hs : r.shape.isScl = true
        · simp [Shape.bidx, hs, Expr.size, hwr.shapeOk.size_scl hs]
        · have := hdims.2.1.resolve_left hs
          simp only [Shape.bidx, hs]
          simp only [Expr.size, Shape.size, this.1, this.2]
          exact hk
      refine ⟨fun k =>
        op.bl 1 (l.denote (ρ x0) (l.shape.bidx k)) (r.denote (ρ x0) (r.shape.bidx k))
          ((Expr.binary op l r w).denote (ρ x0) k) • Dl (l.shape.bidx k) +
        op.br 1 (l.denote (ρ x0) (l.shape.bidx k)) (r.denote (ρ x0) (r.shape.bidx k))
          ((Expr.binary op l r w).denote (ρ x0) k) • Dr (r.shape.bidx k), fun k hk => ?_, ?_⟩
      · exact op.hasFDerivAt (by simpa using hop) w.shape.isScl (hDl _ (bl k hk)) (hDr _ (br k hk))
          fun h => hdiv h _ (br k hk)
      · intro seed V hV
        simp only [Expr.grad, hop]
        simp only [Bool.false_eq_true, if_false, add_smul, Finset.sum_add_distrib]
        rw [hAl _ V fun a ha => hV (Or.inl ha), hAr _ V fun a ha => hV (Or.inr ha)]
        have h1 := sum_collapse Dl hwl.shapeOk hwok hdims.1 (fun k =>
          op.bl (seed k) (bcast l.shape (l.denote (ρ x0)) k) (bcast r.shape (r.denote (ρ x0)) k)
            ((Expr.binary op l r w).denote (ρ x0) k))
        have h2 := sum_collapse Dr hwr.shapeOk hwok hdims.2.1 (fun k =>
          op.br (seed k) (bcast l.shape (l.denote (ρ x0)) k) (bcast r.shape (r.denote (ρ x0)) k)
            ((Expr.binary op l r w).denote (ρ x0) k))
        simp only [Expr.size, View.size] at h1 h2 ⊢
        rw [h1, h2, ← Finset.sum_add_distrib]
        refine Finset.sum_congr rfl fun k _ => ?_
        rw [op.bl_linear (seed k), op.br_linear (seed k), smul_add, smul_smul, smul_smul]
        rfl
  | pow n e w ih =>
    refine ⟨?_, fun _ _ h => h.elim⟩
    replace ih := ih.1
    intro ρ δ hwf hl hr
    obtain ⟨D, hD, hA⟩ := ih ρ δ hwf.1 hl hr.1
    have hsz : (Expr.pow n e w).size = e.size := by
      simp only [Expr.size, Expr.shape, Expr.view]; rw [hwf.2.1]; rfl
    have hdom : ∀ k < e.size, 0 ≤ n ∨ e.denote (ρ x0) k ≠ 0 := by
      intro k hk
      by_cases hn : 0 ≤ n
      · exact Or.inl hn
      · exact Or.inr (hr.2 (by omega) k hk)
    refine ⟨fun k => ((n : ℝ) * (e.denote (ρ x0) k) ^ (n - 1)) • D k, fun k hk => ?_, ?_⟩
    · rw [hsz] at hk
      simp only [Expr.denote]
      exact (hasDerivAt_realPow n (hdom k hk)).comp_hasFDerivAt x0 (hD k hk)
    · intro seed V hV
      rw [hsz]
      simp only [Expr.grad]
      by_cases h0 : n = 0
      · simp only [h0, if_true]
        rw [hA _ V hV]
        simp
      by_cases h1 : n = 1
      · simp only [h1, if_true]
        simp only [one_ne_zero, if_false]
        rw [hA _ V hV]
        simp
      simp only [h0, h1, if_false]
      rw [hA _ V hV]
      refine Finset.sum_congr rfl fun k hk => ?_
      rw [smul_smul]
      congr 1
      exact powSeed_eq n h0 h1 (hdom k (Finset.mem_range.1 hk))
  | prodElem e w c ih =>
    refine ⟨?_, fun _ _ h => h.elim⟩
    replace ih := ih.1
    intro ρ δ hwf hl hr
    obtain ⟨D, hD, hA⟩ := ih ρ δ hwf.1 hl hr
    have hsz : (Expr.prodElem e w c).size = 1 := by
      simp only [Expr.size, Expr.shape, Expr.view]; rw [hwf.2.1]; rfl
    refine ⟨fun _ => ∑ j ∈ Finset.range e.size, (∏ i ∈ (Finset.range e.size).erase j, e.denote (ρ x0) i) • D j,
      fun k hk => ?_, ?_⟩
    · simp only [Expr.denote]
      exact HasFDerivAt.finsetProd fun j hj => hD j (Finset.mem_range.1 hj)
    · intro seed V hV
      simp only [Expr.grad]
      rw [hA _ V hV, hsz]
      simp only [Finset.range_one, Finset.sum_singleton, Finset.smul_sum, smul_smul]
  | transpose e w ih =>
    refine ⟨?_, fun _ _ h => h.elim⟩
    replace ih := ih.1
    intro ρ δ hwf hl hr
    obtain ⟨D, hD, hA⟩ := ih ρ δ hwf.1 hl hr
    have hwsh := hwf.2.2
    have hr1 : w.shape.rows = e.shape.cols := by rw [hwsh]; rfl
    have hc1 : w.shape.cols = e.shape.rows := by rw [hwsh]; rfl
    have hsz : (Expr.transpose e w).size = e.shape.cols * e.shape.rows := by
      simp only [Expr.size, Expr.shape, Expr.view, Shape.size, hr1, hc1]
    have hse : e.size = e.shape.rows * e.shape.cols := rfl
    refine ⟨fun k => D (k / e.shape.cols + (k % e.shape.cols) * e.shape.rows), fun k hk => ?_, ?_⟩
    · simp only [Expr.denote, hr1, hc1]
      refine hD _ ?_
      rw [hsz] at hk
      rw [hse]
      have hc : 0 < e.shape.cols := by
        rcases Nat.eq_zero_or_pos e.shape.cols with h | h
        · simp [h] at hk
        · exact h
      have h1 := Nat.mod_lt k hc
      have h2 : k / e.shape.cols < e.shape.rows := Nat.div_lt_of_lt_mul hk
      nlinarith
    · intro seed V hV
      simp only [Expr.grad]
      rw [hA _ V hV, hsz, hse, sum_range_mul', sum_range_mul', Finset.sum_comm]
      refine Finset.sum_congr rfl fun i hi => Finset.sum_congr rfl fun j hj => ?_
      have hi := Finset.mem_range.1 hi
      have hj := Finset.mem_range.1 hj
      simp only [transposed]
      rw [mod_idx hi, div_idx hi, mod_idx hj, div_idx hj]
  | dot l r w ihl ihr =>
    refine ⟨?_, fun _ _ h => h.elim⟩
    replace ihl := ihl.1
    replace ihr := ihr.1
    intro ρ δ hwf hl hr
    obtain ⟨hwl, hwr, hkl, hkr, hcols, hsh, _, _⟩ := hwf
    obtain ⟨Dl, hDl, hAl⟩ := ihl ρ δ hwl hl.1 hr.1
    obtain ⟨Dr, hDr, hAr⟩ := ihr ρ δ hwr hl.2 hr.2
    have hwr1 : w.shape.rows = l.shape.rows := by
      rw [hsh]; cases hk : r.shape.kind <;> simp_all [Shape.ofDims]
    have hwc1 : w.shape.cols = r.shape.cols := by
      rw [hsh]
      have := hwr.shapeOk
      cases hk : r.shape.kind <;> simp_all [Shape.ofDims, Shape.Ok]
    have hsz : (Expr.dot l r w).size = l.shape.rows * r.shape.cols := by
      simp only [Expr.size, Expr.shape, Expr.view, Shape.size] at *
      rw [hwr1, hwc1]
    have hsl : l.size = l.shape.rows * l.shape.cols := rfl
    have hsr : r.size = l.shape.cols * r.shape.cols := by rw [hcols]; rfl
    refine ⟨fun k => ∑ q ∈ Finset.range l.shape.cols,
      (l.denote (ρ x0) (k % l.shape.rows + q * l.shape.rows) • Dr (q + k / l.shape.rows * l.shape.cols) +
       r.denote (ρ x0) (q + k / l.shape.rows * l.shape.cols) • Dl (k % l.shape.rows + q * l.shape.rows)),
      fun k hk => ?_, ?_⟩
    · simp only [Expr.denote]
      rw [hsz] at hk
      have hm : 0 < l.shape.rows := by
        rcases Nat.eq_zero_or_pos l.shape.rows with h | h
        · simp [h] at hk
        · exact h
      have h1 := Nat.mod_lt k hm
      have h2 : k / l.shape.rows < r.shape.cols := Nat.div_lt_of_lt_mul hk
      refine HasFDerivAt.fun_sum fun q hq => ?_
      have hq := Finset.mem_range.1 hq
      refine (hDl _ ?_).mul (hDr _ ?_)
      · rw [hsl]; nlinarith
      · rw [hsr]; nlinarith
    · intro seed V hV
      simp only [Expr.grad, add_smul, Finset.sum_add_distrib]
      rw [hAl _ V fun a ha => hV (Or.inl ha), hAr _ V fun a ha => hV (Or.inr ha), hsz, hsl, hsr]
      simp only [sum_range_mul', dotLSeed, dotRSeed, sumN_eq, smul_add, Finset.sum_add_distrib, Finset.smul_sum,
        Finset.sum_smul, hwc1]
      rw [add_comm]
      congr 1
      · refine Finset.sum_congr rfl fun j hj => ?_
        rw [Finset.sum_comm]
        refine Finset.sum_congr rfl fun i hi => Finset.sum_congr rfl fun q hq => ?_
        have hi := Finset.mem_range.1 hi
        have hq := Finset.mem_range.1 hq
        rw [mod_idx hi, div_idx hi, mod_idx hq, div_idx hq, smul_smul, mul_comm]
      · have h3 : ∀ F : ℕ → ℕ → ℕ → E →L[ℝ] ℝ,
            ∑ q ∈ Finset.range l.shape.cols, ∑ i ∈ Finset.range l.shape.rows, ∑ j ∈ Finset.range r.shape.cols, F q i j =
            ∑ j ∈ Finset.range r.shape.cols, ∑ i ∈ Finset.range l.shape.rows, ∑ q ∈ Finset.range l.shape.cols, F q i j := by
          intro F
          rw [Finset.sum_comm]
          simp_rw [Finset.sum_comm (s := Finset.range l.shape.cols)]
          rw [Finset.sum_comm]
        rw [h3]
        refine Finset.sum_congr rfl fun j hj => Finset.sum_congr rfl fun i hi => Finset.sum_congr rfl fun q hq => ?_
        have hi := Finset.mem_range.1 hi
        have hq := Finset.mem_range.1 hq
        rw [mod_idx hi, div_idx hi, mod_idx hi, div_idx hi, smul_smul]
  | sumIter es w ih =>
    refine ⟨?_, fun _ _ h => h.elim⟩
    intro ρ δ hwf hl hr
    obtain ⟨D, hD⟩ := lists es ρ δ ih hwf.1 hl hr
    have hsz : ∀ e ∈ es.toList, e.size = w.size := by
      intro e he
      simp only [Expr.size, hwf.2.2 e he, View.size]
    refine ⟨fun k => (es.toList.map (fun e => D e k)).sum, fun k hk => ?_, ?_⟩
    · exact hasFDerivAt_listSum ρ x0 D k es fun e he => (hD e he).deriv k (by rw [hsz e he]; exact hk)
    · intro seed V hV
      simp only [Expr.grad]
      rw [grads_pair ρ δ x0 D es hD _ 0 V hV, pairList_sum D seed w.size es.toList 0 hsz]
      rfl
  | prodIter es w ih =>
    refine ⟨?_, fun _ _ h => h.elim⟩
    intro ρ δ hwf hl hr
    obtain ⟨D, hD⟩ := lists es ρ δ ih hwf.1 hl hr
    have hsz : ∀ e ∈ es.toList, e.size = w.size := by
      intro e he
      simp only [Expr.size, (hwf.2.2 e he).1, View.size]
    refine ⟨fun k => prodDeriv D (es.denotes (ρ x0)) k es.toList 0, fun k hk => ?_, ?_⟩
    · exact hasFDerivAt_listProd ρ x0 D k es fun e he => (hD e he).deriv k (by rw [hsz e he]; exact hk)
    · intro seed V hV
      simp only [Expr.grad]
      rw [grads_pair ρ δ x0 D es hD _ 0 V hV, pairList_prod D _ seed w.size es.toList 0 hsz]
      rfl
  | reduce op es w ih =>
    refine ⟨?_, fun _ _ h => h.elim⟩
    intro ρ δ hwf hl hr
    obtain ⟨hwfs, hsh, ⟨e, rfl, hshok, _⟩ | ⟨o, k, rfl, hfit⟩⟩ := hwf
    rotate_left
    · obtain ⟨D, hD⟩ := lists es ρ δ ih hwfs hl hr.1
      exact stat_calc hsh hfit hl hr.2.2 hD
    obtain ⟨D, hD, hA⟩ := (ih e (by simp [Exprs.toList])).1 ρ δ hwfs.1 hl.1 hr.1.1
    have hreg := hr.2.1 e (by simp [Exprs.toList])
    have hsz : (Expr.reduce op (.cons e .nil) w).size = 1 := by
      simp only [Expr.size, Expr.shape, Expr.view]; rw [hsh]; rfl
    have hgr : ∀ seed a, (Expr.reduce op (.cons e .nil) w).grad (ρ x0) seed a =
        match op.bmap1 e.shape.rows (seed 0) (trunc e.shape.size (e.denote (ρ x0)))
          (op.real e.shape (e.denote (ρ x0))) with
        | some g => e.grad (ρ x0) g a
        | none => 0 := by
      intro seed a
      simp only [Expr.grad, Exprs.grads, Exprs.denotes, List.map_cons, List.map_nil, RedOp.bmap, Expr.denote,
        RedOp.reals, add_zero]
      rfl
    have hV' : ∀ V : Finset ℕ, (Expr.reduce op (.cons e .nil) w).readsA ⊆ V → e.readsA ⊆ V :=
      fun V hV a ha => hV (by simp only [Expr.readsA, Exprs.readsAs]; exact Or.inl ha)
    have hden : ∀ x k, (Expr.reduce op (.cons e .nil) w).denote (ρ x) k = op.real e.shape (e.denote (ρ x)) :=
      fun x k => rfl
    -- enough: a derivative and the pairing
    suffices h : ∃ D' : E →L[ℝ] ℝ, HasFDerivAt (fun x => op.real e.shape (e.denote (ρ x))) D' x0 ∧
        ∀ g : ℝ, (match op.bmap1 e.shape.rows g (trunc e.shape.size (e.denote (ρ x0)))
          (op.real e.shape (e.denote (ρ x0))) with
          | some f => ∑ k ∈ Finset.range e.size, f k • D k
          | none => 0) = g • D' by
      obtain ⟨D', h1, h2⟩ := h
      refine ⟨fun _ => D', fun k _ => ?_, ?_⟩
      · simp only [hden]; exact h1
      · intro seed V hV
        rw [hsz, Finset.range_one, Finset.sum_singleton, ← h2 (seed 0)]
        simp only [hgr]
        split
        · exact hA _ V (hV' V hV)
        · simp
    have hdet : ∀ p : Decomp, e.shape.rows = e.shape.cols → (RedOp.det p).RegAt e.shape (fun x => e.denote (ρ x)) x0 →
        HasFDerivAt (fun x => (RedOp.det p).real e.shape (e.denote (ρ x)))
          ((toMat e.shape.rows (e.denote (ρ x0))).det •
            ∑ k ∈ Finset.range e.size, invT p e.shape.rows (trunc e.shape.size (e.denote (ρ x0))) k • D k) x0 ∧
        HasFDerivAt (fun x => (RedOp.logDet p).real e.shape (e.denote (ρ x)))
          (∑ k ∈ Finset.range e.size, invT p e.shape.rows (trunc e.shape.size (e.denote (ρ x0))) k • D k) x0 := by
      intro p hsq hreg
      obtain ⟨hne, hev⟩ := hreg.decomp hsq
      have hse : e.size = e.shape.rows * e.shape.rows := by rw [Expr.size, Shape.size, ← hsq]
      have h1 := hasFDerivAt_detCol (X := fun x => e.denote (ρ x)) (D := D) (x0 := x0) e.shape.rows
        (fun k hk => hD k (by rw [hse]; exact hk))
      have h2 : ∑ i : Fin e.shape.rows, ∑ j : Fin e.shape.rows,
          (toMat e.shape.rows (e.denote (ρ x0))).adjugate j i • D (i.1 + j.1 * e.shape.rows) =
          (toMat e.shape.rows (e.denote (ρ x0))).det •
            ∑ k ∈ Finset.range e.size, invT p e.shape.rows (trunc e.shape.size (e.denote (ρ x0))) k • D k := by
        rw [hse, sum_mat]
        simp only [Finset.smul_sum]
        refine Finset.sum_congr rfl fun i _ => Finset.sum_congr rfl fun j _ => ?_
        rw [invT_eq p e.shape hsq _ hev.self_of_nhds hne, smul_smul, Matrix.inv_def]
        congr 1
        simp only [Matrix.smul_apply, smul_eq_mul, Ring.inverse_eq_inv']
        field_simp
      rw [h2] at h1
      refine ⟨?_, ?_⟩
      · refine h1.congr_of_eventuallyEq ?_
        filter_upwards [hev] with x hx
        exact (det_real_eq p e.shape hsq _ hx).1
      · have h3 := (h1.log hne)
        rw [inv_smul_smul₀ hne] at h3
        refine h3.congr_of_eventuallyEq ?_
        filter_upwards [hev] with x hx
        rw [(det_real_eq p e.shape hsq _ hx).2, Real.log_abs]
    cases op with
    | sum =>
      refine ⟨∑ k ∈ Finset.range e.size, D k, ?_, ?_⟩
      · exact HasFDerivAt.fun_sum fun k hk => hD k (Finset.mem_range.1 hk)
      · intro g
        simp only [RedOp.bmap1, Finset.smul_sum]
    | norm =>
      refine ⟨∑ k ∈ Finset.range e.size, (2 * e.denote (ρ x0) k) • D k, ?_, ?_⟩
      · refine HasFDerivAt.fun_sum fun k hk => ?_
        have := (hD k (Finset.mem_range.1 hk)).pow 2
        simpa using this
      · intro g
        simp only [RedOp.bmap1, Finset.smul_sum, smul_smul]
        refine Finset.sum_congr rfl fun k hk => ?_
        rw [trunc_of_lt (n := e.shape.size) (Finset.mem_range.1 hk)]
        congr 1
        ring
    | det p =>
      have hsq : e.shape.rows = e.shape.cols := hshok.2
      refine ⟨_, (hdet p hsq hreg).1, ?_⟩
      intro g
      obtain ⟨hne, hev⟩ := hreg.decomp hsq
      simp only [RedOp.bmap1, (valid_det p e.shape hsq _ hev.self_of_nhds hne).1, beq_iff, Bool.not_true,
        Bool.or_false]
      split
      · rename_i h; split at h
        · simp at h
        · simp only [Option.some.injEq] at h
          subst h
          rw [(det_real_eq p e.shape hsq _ hev.self_of_nhds).1]
          simp only [Finset.smul_sum, smul_smul]
          refine Finset.sum_congr rfl fun k hk => ?_
          congr 1; ring
      · rename_i h; split at h
        · rename_i h0
          rw [h0, zero_smul]
        · simp at h
    | stat => exact hshok.elim
    | logDet p =>
      have hsq : e.shape.rows = e.shape.cols := hshok.2
      have hreg' : (RedOp.det p).RegAt e.shape (fun x => e.denote (ρ x)) x0 := by
        cases p <;> exact hreg
      refine ⟨_, (hdet p hsq hreg').2, ?_⟩
      intro g
      obtain ⟨hne, hev⟩ := hreg'.decomp hsq
      simp only [RedOp.bmap1, (valid_det p e.shape hsq _ hev.self_of_nhds hne).2, beq_iff, Bool.not_true,
        Bool.or_false]
      split
      · rename_i h; split at h
        · simp at h
        · simp only [Option.some.injEq] at h
          subst h
          simp only [Finset.smul_sum, smul_smul]
      · rename_i h; split at h
        · rename_i h0
          rw [h0, zero_smul]
        · simp at h
  | ifElse c a b w _ iha ihb =>
    refine ⟨?_, fun _ _ h => h.elim⟩
    replace iha := iha.1
    replace ihb := ihb.1
    intro ρ δ hwf hl hr
    obtain ⟨_, hwa, hwb, _, _, hsa, hsb, -⟩ := hwf
    obtain ⟨hev, hr⟩ := hr
    have key : ∀ e : Expr ℝ, e.shape = w.shape → CalcClaim x0 e → e.NWF → e.Leaves ρ δ x0 → e.Reg ρ x0 →
        e.readsA ⊆ (Expr.ifElse c a b w).readsA →
        (∀ᶠ x in 𝓝 x0, ∀ k, (Expr.ifElse c a b w).denote (ρ x) k = e.denote (ρ x) k) →
        (∀ seed, (Expr.ifElse c a b w).grad (ρ x0) seed = e.grad (ρ x0) seed) →
        ∃ D, CalcOk (Expr.ifElse c a b w) ρ δ x0 D := by
      intro e hs hc hwf hl hr hra hden hgr
      obtain ⟨D, hD, hA⟩ := hc ρ δ hwf hl hr
      have hsz : (Expr.ifElse c a b w).size = e.size := by simp only [Expr.size, Expr.shape, Expr.view] at *; rw [hs]
      refine ⟨D, fun k hk => ?_, ?_⟩
      · refine (hD k (hsz ▸ hk)).congr_of_eventuallyEq ?_
        filter_upwards [hden] with x hx using hx k
      · intro seed V hV
        rw [hgr, hsz]
        exact hA seed V (hra.trans hV)
    by_cases hc : c.denote (ρ x0) 0 ≠ 0
    · rw [if_pos hc] at hr
      refine key a hsa iha hwa hl.2.1 hr (fun y hy => Or.inr (Or.inl hy)) ?_ ?_
      · filter_upwards [hev] with x hx k
        simp only [Expr.denote]
        rw [if_pos (hx.2 hc)]
      · intro seed; funext y
        simp only [Expr.grad]
        rw [if_pos hc]
    · rw [if_neg hc] at hr
      refine key b hsb ihb hwb hl.2.2 hr (fun y hy => Or.inr (Or.inr hy)) ?_ ?_
      · filter_upwards [hev] with x hx k
        simp only [Expr.denote]
        rw [if_neg (fun h => hc (hx.1 h))]
      · intro seed; funext y
        simp only [Expr.grad]
        rw [if_neg hc]
  | eq v e w ih => exact ⟨fun _ _ h => h.elim, calc_stm_eq ih.1⟩
  | opEq => exact ⟨fun _ _ h => h.elim, fun _ _ h => h.elim⟩
  | glue l r w ihl ihr => exact ⟨calc_glue ihl.2 ihr.1, calc_stm_glue ihl.2 ihr.2⟩
  | forEach => exact ⟨fun _ _ h => h.elim, fun _ _ h => h.elim⟩

theorem calc_okN [LawfulLinAlg] (ρ : E → ℕ → ℝ) (δ : ℕ → E →L[ℝ] ℝ) (x0 : E) (e : Expr ℝ) (hwf : e.NWF) (hl : e.Leaves ρ δ x0) (hr : e.Reg ρ x0) :
    ∃ D, CalcOk e ρ δ x0 D :=
  (calc_both x0 e).1 ρ δ hwf hl hr

theorem calc_ok [LawfulLinAlg] (ρ : E → ℕ → ℝ) (δ : ℕ → E →L[ℝ] ℝ) (x0 : E) (e : Expr ℝ) (hwf : e.WF) (hl : e.Leaves ρ δ x0) (hr : e.Reg ρ x0) :
    ∃ D, CalcOk e ρ δ x0 D := calc_okN ρ δ x0 e hwf.nested hl hr

end

end FastAD
