import Verif.Props.Samples
import Verif.Proof.Nodes

/-!
# What the individual nodes do

Properties C11, C12, C18, C19, C20, C21, C29.  Each theorem says how a node behaves (value, seeds handed to the operands) in terms of
the behaviour of its operands, for arbitrary operand expressions.
-/

namespace FastAD

variable [HasInf ℝ] [LinAlg ℝ]

/-- **C11 (partial).** `if_else(c, a, b)` has the value of `a` if the value of `c` is non-zero, else that of `b`, and its backward pass does to the adjoints
exactly what that of the selected branch does with the same seed; adjoints of variables that the selected branch does not mention
are unchanged.  Missing: `if_else` as an operand, which is false (`C05_false_for_nested_if_else`), and array branches of different C++ types, see
`C11_false_for_mixed_branches`. -/
theorem C11_if_else_partial {c a b : Expr ℝ} {s : St ℝ} (hwf : (Expr.mkIfElse c a b).WF) (hal : (Expr.mkIfElse c a b).Alive s.vok s.aok) (seed : ℕ → ℝ) :
    (c.denote s.val 0 ≠ 0 → ∃ d, Behaves a s (a.denote s.val) seed d ∧ Behaves (.mkIfElse c a b) s (a.denote s.val) seed d ∧ ∀ x ∉ a.adjCells, d x = 0) ∧
    (c.denote s.val 0 = 0 → ∃ d, Behaves b s (b.denote s.val) seed d ∧ Behaves (.mkIfElse c a b) s (b.denote s.val) seed d ∧ ∀ x ∉ b.adjCells, d x = 0) := by
  have h := behaves hwf hal seed
  have hala : a.Alive s.vok s.aok := alive_append hal (fun v hv => by simp [Expr.mkIfElse, Expr.vars, hv]) fun c hc => by simp [Expr.mkIfElse, Expr.cviews, hc]
  have halb : b.Alive s.vok s.aok := alive_append hal (fun v hv => by simp [Expr.mkIfElse, Expr.vars, hv]) fun c hc => by simp [Expr.mkIfElse, Expr.cviews, hc]
  constructor
  · intro hc
    refine ⟨_, behaves hwf.2.1 hala seed, h.congr (fun k _ => ?_) (fun x => ?_), fun x hx => grad_support _ _ _ _ fun h => hx (readsA_cells a x h)⟩
    · simp [Expr.mkIfElse, Expr.denote, hc]
    · simp [Expr.mkIfElse, Expr.grad, hc]
  · intro hc
    refine ⟨_, behaves hwf.2.2.1 halb seed, h.congr (fun k _ => ?_) (fun x => ?_), fun x hx => grad_support _ _ _ _ fun h => hx (readsA_cells b x h)⟩
    · simp [Expr.mkIfElse, Expr.denote, hc]
    · simp [Expr.mkIfElse, Expr.grad, hc]

/-- **C12.** A comparison or logical node evaluates, coefficient by coefficient, to 1 or 0 according to the truth of the relation (for `&&` and `||` between
arrays: provided the coefficients are 0 or 1, README 815), and its backward pass changes nothing in memory at all. -/
theorem C12_comparison {op : BOp} {l r : Expr ℝ} {s : St ℝ} (hop : op.isComparison = true) (hwf : (Expr.mkBinary op l r).WF)
    (hal : (Expr.mkBinary op l r).Alive s.vok s.aok) {qv qa : ℕ} {jv ja : ℕ → ℝ} (hf : Fresh s (Expr.mkBinary op l r).bindSize qv qa) (seed : ℕ → ℝ) :
    ∃ s1 ref g, evaluate (bindExpr (.mkBinary op l r) qv qa jv ja s).1 (bindExpr (.mkBinary op l r) qv qa jv ja s).2 = some (s1, ref) ∧
      ref.read s1 (Expr.mkBinary op l r).size = some g ∧
      evaluateAdj (bindExpr (.mkBinary op l r) qv qa jv ja s).1 seed s1 = some s1 ∧
      ∀ k < (Expr.mkBinary op l r).size,
        let x := l.denote s.val (if l.shape.isScl then 0 else k)
        let y := r.denote s.val (if r.shape.isScl then 0 else k)
        (op = .lt → g k = ind (x < y)) ∧ (op = .le → g k = ind (x ≤ y)) ∧ (op = .gt → g k = ind (x > y)) ∧ (op = .ge → g k = ind (x ≥ y)) ∧
        (op = .eq → g k = ind (x = y)) ∧ (op = .ne → g k = ind (x ≠ y)) ∧
        (l.shape.isScl = true → r.shape.isScl = true → (op = .and → g k = ind (x ≠ 0 ∧ y ≠ 0)) ∧ (op = .or → g k = ind (x ≠ 0 ∨ y ≠ 0))) ∧
        (x = 0 ∨ x = 1 → y = 0 ∨ y = 1 → (op = .and → g k = ind (x = 1 ∧ y = 1)) ∧ (op = .or → g k = ind (x = 1 ∨ y = 1))) := by
  obtain ⟨s1, ref, g, s2, h1, h2, h3, h4, h5, h6⟩ := behaves hwf hal seed qv qa jv ja hf
  refine ⟨s1, ref, g, h1, h2, ?_, fun k hk => ?_⟩
  · show Expr.beval (Expr.bind (.binary op l r _) _).1 seed s1 = some s1
    simp only [Expr.bind, Expr.beval, hop, if_true]
  · have h := h3 k hk
    intro x y
    simp only [Expr.mkBinary, Expr.denote] at h
    have hsc : (View.null (Expr.binShape l.shape r.shape)).shape.isScl = true ↔ l.shape.isScl = true ∧ r.shape.isScl = true := hwf.2.2.2.1.2.2
    refine ⟨?_, ?_, ?_, ?_, ?_, ?_, ?_, ?_⟩
    · rintro rfl; exact h
    · rintro rfl; exact h
    · rintro rfl; exact h
    · rintro rfl; exact h
    · rintro rfl; exact h
    · rintro rfl; exact h
    · intro hl hr
      rw [hsc.2 ⟨hl, hr⟩] at h
      constructor <;> rintro rfl <;> exact h
    · intro hx hy
      rw [h]
      constructor <;> rintro rfl <;> rcases hx with hx | hx <;> rcases hy with hy | hy <;>
        simp only [BOp.real] <;> rw [show l.denote s.val (if l.shape.isScl then 0 else k) = _ from hx, show r.denote s.val (if r.shape.isScl then 0 else k) = _ from hy, hx, hy] <;>
        simp [ind]

/-- **C18.** `prod(e)` over the coefficients of one expression evaluates to their product and hands coefficient `k` of the operand the seed times the product of all other
coefficients, whatever the number of zeros among them; no value is changed (`Behaves`), in particular not the stored product. -/
theorem C18_prod_elements {e : Expr ℝ} {s : St ℝ} (hwf : (Expr.mkProdElem e).WF) (hal : e.Alive s.vok s.aok) (seed : ℕ → ℝ) :
    ∃ d, Behaves e s (e.denote s.val) (fun k => seed 0 * ∏ j ∈ (Finset.range e.size).erase k, e.denote s.val j) d ∧
      Behaves (.mkProdElem e) s (fun _ => ∏ j ∈ Finset.range e.size, e.denote s.val j) seed d :=
  ⟨_, behaves hwf.1 hal _, (behaves hwf hal seed).congr (fun _ _ => rfl) fun _ => rfl⟩

/-- **C18.** The same for `prod` over a range of expressions (coefficient-wise): factor `i` is seeded with the seed times the product of all other factors. -/
theorem C18_prod_range {kd : Kind} {es : Exprs ℝ} {s : St ℝ} (hwf : (Expr.mkProdIter kd es).WF) (hal : (Expr.mkProdIter kd es).Alive s.vok s.aok) (seed : ℕ → ℝ) :
    ∃ d : ℕ → ℕ → ℝ,
      (∀ i (hi : i < es.toList.length), Behaves es.toList[i] s (es.toList[i].denote s.val)
        (fun k => seed k * ((es.toList.eraseIdx i).map fun x => x.denote s.val k).prod) (d i)) ∧
      Behaves (.mkProdIter kd es) s (fun k => (es.toList.map fun x => x.denote s.val k).prod) seed
        (fun a => ∑ i ∈ Finset.range es.toList.length, d i a) := by
  refine ⟨fun i => (es.toList.getD i (.const .scl fun _ => 0)).grad s.val (fun k => seed k * ((es.toList.eraseIdx i).map fun x => x.denote s.val k).prod), ?_, ?_⟩
  · intro i hi
    have hm : es.toList[i] ∈ es.toList := List.getElem_mem hi
    beta_reduce
    rw [show es.toList.getD i (.const .scl fun _ => 0) = es.toList[i] by simp [List.getD_eq_getElem?_getD, hi]]
    exact behaves (WFs_mem hwf.1 hm) (alive_append hal (mem_leaves hm).1 (mem_leaves hm).2) _
  · refine (behaves hwf hal seed).congr (fun k _ => ?_) fun a => ?_
    · simp [Expr.mkProdIter, Expr.denote, denotes_eq, Function.comp_def]
    · simp only [Expr.mkProdIter, Expr.grad]
      rw [grads_sum]
      refine Finset.sum_congr rfl fun j _ => ?_
      simp [prodOthers, denotes_eq, List.eraseIdx_map, Function.comp_def]

/-- **C19, dot.** `dot(l, r)` evaluates to the matrix product `A * B` and hands `G * Bᵀ` to the left and `Aᵀ * G` to the right operand, `G` being the seed. -/
theorem C19_dot {l r : Expr ℝ} {s : St ℝ} (hwf : (Expr.mkDot l r).WF) (hal : (Expr.mkDot l r).Alive s.vok s.aok) {m p n : ℕ}
    (hl : l.shape.rows = m ∧ l.shape.cols = p) (hr : r.shape.rows = p ∧ r.shape.cols = n) (seed : ℕ → ℝ) :
    let A := matOf m p (l.denote s.val)
    let B := matOf p n (r.denote s.val)
    let G := matOf m n seed
    (Expr.mkDot l r).shape.rows = m ∧ (Expr.mkDot l r).shape.cols = n ∧
    ∃ dl dr, Behaves l s (l.denote s.val) (colMajor (G * B.transpose)) dl ∧ Behaves r s (r.denote s.val) (colMajor (A.transpose * G)) dr ∧
      Behaves (.mkDot l r) s (colMajor (A * B)) seed (fun a => dl a + dr a) := by
  intro A B G
  obtain ⟨rfl, rfl⟩ := hl
  obtain ⟨hlr, rfl⟩ := hr
  obtain ⟨wfl, wfr, hkl, hkr, hcr, hsh, -⟩ := id hwf
  have hcols : r.shape.kind = .vec → r.shape.cols = 1 := by
    intro hk; have := wfr.shapeOk; rw [Shape.Ok, hk] at this; exact this
  have hw : (Expr.mkDot l r).shape.rows = l.shape.rows ∧ (Expr.mkDot l r).shape.cols = r.shape.cols := by
    show (Shape.ofDims r.shape.kind l.shape.rows r.shape.cols).rows = _ ∧ (Shape.ofDims r.shape.kind l.shape.rows r.shape.cols).cols = _
    cases hk : r.shape.kind
    · exact absurd hk hkr
    · simp [Shape.ofDims, hcols hk]
    · simp [Shape.ofDims]
  have hall : l.Alive s.vok s.aok := alive_append hal (fun v hv => by simp [Expr.mkDot, Expr.vars, hv]) fun c hc => by simp [Expr.mkDot, Expr.cviews, hc]
  have halr : r.Alive s.vok s.aok := alive_append hal (fun v hv => by simp [Expr.mkDot, Expr.vars, hv]) fun c hc => by simp [Expr.mkDot, Expr.cviews, hc]
  refine ⟨hw.1, hw.2, _, _, behaves wfl hall _, behaves wfr halr _, (behaves hwf hal seed).congr (fun k hk => ?_) fun a => ?_⟩
  · have hk : k < l.shape.rows * r.shape.cols := by
      have : (Expr.mkDot l r).size = l.shape.rows * r.shape.cols := by rw [Expr.size, Shape.size, hw.1, hw.2]
      omega
    obtain ⟨h1, h2, h3⟩ := colMajor_eq (A * B) hk
    rw [h3]
    simp only [Expr.mkDot, Expr.denote, Matrix.mul_apply, A, B, matOf, Matrix.of_apply, Finset.sum_range]
  · simp only [Expr.mkDot, Expr.grad]
    refine congrArg₂ (· + ·) (congrFun (grad_congr _ _ _ _ wfl fun k hk => ?_) a) (congrFun (grad_congr _ _ _ _ wfr fun k hk => ?_) a)
    · obtain ⟨h1, h2, h3⟩ := colMajor_eq (G * B.transpose) (k := k) hk
      rw [h3]
      simp only [dotLSeed, sumN_eq, Matrix.mul_apply, Matrix.transpose_apply, G, B, matOf, Matrix.of_apply, Finset.sum_range]
      have hc : (View.null (Shape.ofDims r.shape.kind l.shape.rows r.shape.cols)).shape.cols = r.shape.cols := hw.2
      rw [← Finset.sum_range (fun j => seed (k % l.shape.rows + j * l.shape.rows) * r.denote s.val (k / l.shape.rows + j * l.shape.cols)),
        ← Finset.sum_range (fun j => seed (k % l.shape.rows + j * l.shape.rows) * r.denote s.val (k / l.shape.rows + j * l.shape.cols)), hc]
    · have hk : k < l.shape.cols * r.shape.cols := by rw [← hlr]; exact hk
      obtain ⟨h1, h2, h3⟩ := colMajor_eq (A.transpose * G) hk
      rw [h3]
      simp only [dotRSeed, sumN_eq, Matrix.mul_apply, Matrix.transpose_apply, A, G, matOf, Matrix.of_apply, Finset.sum_range]

/-- **C19, transpose.** `transpose(e)` evaluates to the transpose and hands the transposed seed to its operand. -/
theorem C19_transpose {e : Expr ℝ} {s : St ℝ} (hwf : (Expr.mkTranspose e).WF) (hal : e.Alive s.vok s.aok) {m n : ℕ}
    (he : e.shape.rows = m ∧ e.shape.cols = n) (seed : ℕ → ℝ) :
    ∃ d, Behaves e s (e.denote s.val) (colMajor (matOf n m seed).transpose) d ∧
      Behaves (.mkTranspose e) s (colMajor (matOf m n (e.denote s.val)).transpose) seed d := by
  obtain ⟨rfl, rfl⟩ := he
  refine ⟨_, behaves hwf.1 hal _, (behaves hwf hal seed).congr (fun k hk => ?_) fun a => ?_⟩
  · have hk : k < e.shape.cols * e.shape.rows := hk
    obtain ⟨h1, h2, h3⟩ := colMajor_eq (matOf e.shape.rows e.shape.cols (e.denote s.val)).transpose hk
    rw [h3]
    rfl
  · refine congrFun (grad_congr _ _ _ _ hwf.1 fun k hk => ?_) a
    obtain ⟨h1, h2, h3⟩ := colMajor_eq (matOf e.shape.cols e.shape.rows seed).transpose (k := k) hk
    rw [h3]
    rfl

/-- **C19, norm.** `norm(e)` evaluates to the sum of the squares and hands `2 * seed * eₖ` to coefficient `k` of the operand. -/
theorem C19_norm {e : Expr ℝ} {s : St ℝ} (hwf : (Expr.mkReduce .norm (.cons e .nil)).WF) (hal : e.Alive s.vok s.aok) (seed : ℕ → ℝ) :
    ∃ d, Behaves e s (e.denote s.val) (fun k => 2 * seed 0 * e.denote s.val k) d ∧
      Behaves (.mkReduce .norm (.cons e .nil)) s (fun _ => ∑ k ∈ Finset.range e.size, e.denote s.val k ^ 2) seed d := by
  have hal' : (Expr.mkReduce .norm (.cons e .nil) : Expr ℝ).Alive s.vok s.aok :=
    alive_append hal (fun v hv => by simpa [Expr.mkReduce, Expr.vars, Exprs.varss] using hv) fun c hc => by simpa [Expr.mkReduce, Expr.cviews, Exprs.cviewss] using hc
  refine ⟨_, behaves hwf.1.1 hal _, (behaves hwf hal' seed).congr (fun _ _ => rfl) fun a => ?_⟩
  simp only [Expr.mkReduce, Expr.grad, Exprs.grads, Exprs.denotes, List.map_cons, List.map_nil, RedOp.bmap, RedOp.bmap1, add_zero]
  refine congrFun (grad_congr _ _ _ _ hwf.1.1 fun k hk => ?_) a
  rw [trunc_of_lt (show k < e.shape.size from hk)]
  ring

/-- `sum(e)` evaluates to the sum of the coefficients and hands the seed to each of them. -/
theorem C19_sum {e : Expr ℝ} {s : St ℝ} (hwf : (Expr.mkReduce .sum (.cons e .nil)).WF) (hal : e.Alive s.vok s.aok) (seed : ℕ → ℝ) :
    ∃ d, Behaves e s (e.denote s.val) (fun _ => seed 0) d ∧
      Behaves (.mkReduce .sum (.cons e .nil)) s (fun _ => ∑ k ∈ Finset.range e.size, e.denote s.val k) seed d := by
  have hal' : (Expr.mkReduce .sum (.cons e .nil) : Expr ℝ).Alive s.vok s.aok :=
    alive_append hal (fun v hv => by simpa [Expr.mkReduce, Expr.vars, Exprs.varss] using hv) fun c hc => by simpa [Expr.mkReduce, Expr.cviews, Exprs.cviewss] using hc
  refine ⟨_, behaves hwf.1.1 hal _, (behaves hwf hal' seed).congr (fun _ _ => rfl) fun a => ?_⟩
  simp only [Expr.mkReduce, Expr.grad, Exprs.grads, Exprs.denotes, List.map_cons, List.map_nil, RedOp.bmap, RedOp.bmap1, add_zero, if_true]

/-- **C20 (partial).** For every decomposition policy under its precondition, `det(e)` evaluates to the determinant of the matrix and, if the matrix is non-singular, hands
`seed * cofactor matrix` (the transposed adjugate) to its operand (a seed of 0 is not propagated, which is the same).  Missing: singular matrices, where it is false (`C20_false_at_singular`). -/
theorem C20_det_partial [LawfulLinAlg] {p : Decomp} {e : Expr ℝ} {s : St ℝ} (hwf : (Expr.mkReduce (.det p) (.cons e .nil)).WF) (hal : e.Alive s.vok s.aok) {n : ℕ}
    (he : e.shape.rows = n) (hpre : p.Pre n (e.denote s.val)) (seed : ℕ → ℝ) :
    (∃ d, Behaves (.mkReduce (.det p) (.cons e .nil)) s (fun _ => (matOf n n (e.denote s.val)).det) seed d ∧ (seed 0 = 0 → ∀ a, d a = 0)) ∧
    ((matOf n n (e.denote s.val)).det ≠ 0 → seed 0 ≠ 0 → ∃ d, Behaves e s (e.denote s.val) (colMajor (seed 0 • (matOf n n (e.denote s.val)).adjugate.transpose)) d ∧
      Behaves (.mkReduce (.det p) (.cons e .nil)) s (fun _ => (matOf n n (e.denote s.val)).det) seed d) := by
  subst he
  have hal' : (Expr.mkReduce (.det p) (.cons e .nil) : Expr ℝ).Alive s.vok s.aok :=
    alive_append hal (fun v hv => by simpa [Expr.mkReduce, Expr.vars, Exprs.varss] using hv) fun c hc => by simpa [Expr.mkReduce, Expr.cviews, Exprs.cviewss] using hc
  have hsq : e.shape.rows = e.shape.cols := (reduce_single hwf).1.2
  have hok := decomp_ok hsq hpre
  have hval := (det_real_eq p e.shape hsq _ hok).1
  have hb := behaves hwf hal' seed
  exact ⟨⟨_, hb.congr (fun _ _ => hval) fun _ => rfl, fun h0 => det_seed_zero (.inl ⟨p, rfl⟩) h0⟩,
    fun hdet h0 => ⟨_, behaves hwf.1.1 hal _, hb.congr (fun _ _ => hval) (det_grad hwf.1.1 hsq hok hdet h0)⟩⟩

/-- **C21.** For every decomposition policy under its precondition, `log_det(e)` of a non-singular matrix evaluates to `log |det|` and hands `seed * (inverse transposed)` to
its operand (a seed of 0 is not propagated, which is the same).  Nothing is added to any adjoint for a singular matrix (LU, LDLT), nor for a symmetric matrix that is not positive definite (LLT). -/
theorem C21_log_det [LawfulLinAlg] {p : Decomp} {e : Expr ℝ} {s : St ℝ} (hwf : (Expr.mkReduce (.logDet p) (.cons e .nil)).WF) (hal : e.Alive s.vok s.aok) {n : ℕ}
    (he : e.shape.rows = n) (seed : ℕ → ℝ) :
    (p.Pre n (e.denote s.val) → (matOf n n (e.denote s.val)).det ≠ 0 →
      (seed 0 = 0 → Behaves (.mkReduce (.logDet p) (.cons e .nil)) s (fun _ => Real.log |(matOf n n (e.denote s.val)).det|) seed fun _ => 0) ∧
      (seed 0 ≠ 0 → ∃ d, Behaves e s (e.denote s.val) (colMajor (seed 0 • (matOf n n (e.denote s.val))⁻¹.transpose)) d ∧
        Behaves (.mkReduce (.logDet p) (.cons e .nil)) s (fun _ => Real.log |(matOf n n (e.denote s.val)).det|) seed d)) ∧
    ((match p with
      | .lu => (matOf n n (e.denote s.val)).det = 0
      | .ldlt => p.Pre n (e.denote s.val) ∧ (matOf n n (e.denote s.val)).det = 0
      | .llt => (matOf n n (e.denote s.val)).IsSymm ∧ ¬ (matOf n n (e.denote s.val)).PosDef) →
      ∃ f, Behaves (.mkReduce (.logDet p) (.cons e .nil)) s f seed fun _ => 0) := by
  subst he
  have hal' : (Expr.mkReduce (.logDet p) (.cons e .nil) : Expr ℝ).Alive s.vok s.aok :=
    alive_append hal (fun v hv => by simpa [Expr.mkReduce, Expr.vars, Exprs.varss] using hv) fun c hc => by simpa [Expr.mkReduce, Expr.cviews, Exprs.cviewss] using hc
  have hsq : e.shape.rows = e.shape.cols := (reduce_single hwf).1.2
  have hb := behaves hwf hal' seed
  constructor
  · intro hpre hdet
    have hok := decomp_ok hsq hpre
    have hval := (det_real_eq p e.shape hsq _ hok).2
    exact ⟨fun h0 => hb.congr (fun _ _ => hval) (det_seed_zero (.inr ⟨p, rfl⟩) h0),
      fun h0 => ⟨_, behaves hwf.1.1 hal _, hb.congr (fun _ _ => hval) (logDet_grad hwf.1.1 hsq hok hdet h0)⟩⟩
  · intro h
    refine ⟨_, hb.congr (fun _ _ => rfl) (logDet_invalid ?_ seed)⟩
    cases p with
    | lu => exact invalid_lu (.inr rfl) hsq h
    | ldlt => exact invalid_ldlt hsq h.1.1 h.1.2 h.2
    | llt => exact invalid_llt hsq h.1 h.2

/-- **C29 (partial).** A binary operator between a scalar `l` and a non-empty array `r` is well-formed and has the shape of the array; it applies the scalar to
every coefficient; the seed of the scalar is the sum of the partial derivatives times the seed, the seed of the array is coefficient-wise.
Missing: empty arrays, where it is false (`C29_false_for_empty`). -/
theorem C29_scalar_array_partial {op : BOp} {l r : Expr ℝ} {s : St ℝ} (wl : l.WF) (wr : r.WF) (hl : l.shape.kind = .scl) (hr : r.shape.kind ≠ .scl)
    (hne : r.shape.size ≠ 0) (hil : l.isIf = false) (hir : r.isIf = false) (hal : l.Alive s.vok s.aok) (har : r.Alive s.vok s.aok) (seed : ℕ → ℝ) :
    let x := l.denote s.val 0
    let y := r.denote s.val
    (Expr.mkBinary op l r).shape = r.shape ∧
    (∃ d, Behaves (.mkBinary op l r) s (fun k => op.real false x (y k)) seed d) ∧
    (op.isComparison = false → (∀ k < r.size, op = .div → y k ≠ 0) →
      ∃ p q : ℕ → ℝ, ∃ dl dr, (∀ k < r.size, HasDerivAt (fun t => op.real false t (y k)) (p k) x ∧ HasDerivAt (fun t => op.real false x t) (q k) (y k)) ∧
        Behaves l s (l.denote s.val) (fun _ => ∑ k ∈ Finset.range r.size, seed k * p k) dl ∧
        Behaves r s (r.denote s.val) (fun k => seed k * q k) dr ∧
        Behaves (.mkBinary op l r) s (fun k => op.real false x (y k)) seed fun a => dl a + dr a) := by
  intro x y
  have hsh : (Expr.mkBinary op l r).shape = r.shape := binShape_left wl.shapeOk wr.shapeOk hl hr hne
  have hls : l.shape.isScl = true := by simp [Shape.isScl, hl]
  have hrs : r.shape.isScl = false := by simpa [Shape.isScl] using hr
  have hwf : (Expr.mkBinary op l r).WF := by
    refine ⟨wl, wr, ?_, ?_, fun _ => ⟨fun h => ?_, fun h => ?_⟩⟩
    · show (Expr.mkBinary op l r).shape.Ok
      rw [hsh]
      exact wr.shapeOk
    · show binDimsOk l.shape r.shape (Expr.mkBinary op l r).shape
      rw [hsh]
      exact ⟨.inl hls, .inr ⟨rfl, rfl⟩, by simp [hrs]⟩
    · rw [hil] at h; cases h
    · rw [hir] at h; cases h
  have hal' : (Expr.mkBinary op l r).Alive s.vok s.aok := ⟨fun v hv => (List.mem_append.1 hv).elim (hal.1 v) (har.1 v), fun c hc => (List.mem_append.1 hc).elim (hal.2 c) (har.2 c)⟩
  have hw : (View.null (Expr.binShape l.shape r.shape)).shape = r.shape := hsh
  have hw2 : (View.null (Expr.binShape l.shape r.shape)).size = r.size := by simp only [View.size, hw]; rfl
  have hb := (behaves hwf hal' seed).congr (f' := fun k => op.real false x (y k)) (d' := (Expr.mkBinary op l r).grad s.val seed)
    (fun k hk => by simp [Expr.mkBinary, Expr.denote, hls, hrs, hw, x, y]) fun _ => rfl
  refine ⟨hsh, ⟨_, hb⟩, fun hop hy => ⟨fun k => op.bl 1 x (y k) (op.real false x (y k)), fun k => op.br 1 x (y k) (op.real false x (y k)), _, _,
    fun k hk => op.hasDerivAt hop (fun h => hy k hk h), behaves wl hal _, behaves wr har _, hb.congr (fun _ _ => rfl) fun a => ?_⟩⟩
  simp only [Expr.mkBinary, Expr.grad, hop, Bool.false_eq_true, if_false]
  refine congrArg₂ (· + ·) (congrFun (grad_congr _ _ _ _ wl fun k hk => ?_) a) (congrFun (grad_congr _ _ _ _ wr fun k hk => ?_) a)
  · simp only [collapse, hw, hls, hrs, hw2, Bool.not_false, Bool.and_self, if_true, sumN_eq, bcast, Shape.bidx, Bool.false_eq_true, if_false, Expr.denote]
    exact Finset.sum_congr rfl fun k _ => op.bl_linear _ _ _ _
  · simp only [collapse, hw, hls, hrs, Bool.not_false, Bool.false_and, if_true, bcast, Shape.bidx, Bool.false_eq_true, if_false, Expr.denote]
    exact op.br_linear _ _ _ _

/-- **C29 (partial)**, the scalar on the right. -/
theorem C29_array_scalar_partial {op : BOp} {l r : Expr ℝ} {s : St ℝ} (wl : l.WF) (wr : r.WF) (hl : l.shape.kind ≠ .scl) (hr : r.shape.kind = .scl)
    (hne : l.shape.size ≠ 0) (hil : l.isIf = false) (hir : r.isIf = false) (hal : l.Alive s.vok s.aok) (har : r.Alive s.vok s.aok) (seed : ℕ → ℝ) :
    let x := l.denote s.val
    let y := r.denote s.val 0
    (Expr.mkBinary op l r).shape = l.shape ∧
    (∃ d, Behaves (.mkBinary op l r) s (fun k => op.real false (x k) y) seed d) ∧
    (op.isComparison = false → (op = .div → y ≠ 0) →
      ∃ p q : ℕ → ℝ, ∃ dl dr, (∀ k < l.size, HasDerivAt (fun t => op.real false t y) (p k) (x k) ∧ HasDerivAt (fun t => op.real false (x k) t) (q k) y) ∧
        Behaves l s (l.denote s.val) (fun k => seed k * p k) dl ∧
        Behaves r s (r.denote s.val) (fun _ => ∑ k ∈ Finset.range l.size, seed k * q k) dr ∧
        Behaves (.mkBinary op l r) s (fun k => op.real false (x k) y) seed fun a => dl a + dr a) := by
  intro x y
  have hsh : (Expr.mkBinary op l r).shape = l.shape := binShape_right wl.shapeOk wr.shapeOk hl hr hne
  have hrs : r.shape.isScl = true := by simp [Shape.isScl, hr]
  have hls : l.shape.isScl = false := by simpa [Shape.isScl] using hl
  have hwf : (Expr.mkBinary op l r).WF := by
    refine ⟨wl, wr, ?_, ?_, fun _ => ⟨fun h => ?_, fun h => ?_⟩⟩
    · show (Expr.mkBinary op l r).shape.Ok
      rw [hsh]
      exact wl.shapeOk
    · show binDimsOk l.shape r.shape (Expr.mkBinary op l r).shape
      rw [hsh]
      exact ⟨.inr ⟨rfl, rfl⟩, .inl hrs, by simp [hls]⟩
    · rw [hil] at h; cases h
    · rw [hir] at h; cases h
  have hal' : (Expr.mkBinary op l r).Alive s.vok s.aok := ⟨fun v hv => (List.mem_append.1 hv).elim (hal.1 v) (har.1 v), fun c hc => (List.mem_append.1 hc).elim (hal.2 c) (har.2 c)⟩
  have hw : (View.null (Expr.binShape l.shape r.shape)).shape = l.shape := hsh
  have hw2 : (View.null (Expr.binShape l.shape r.shape)).size = l.size := by simp only [View.size, hw]; rfl
  have hb := (behaves hwf hal' seed).congr (f' := fun k => op.real false (x k) y) (d' := (Expr.mkBinary op l r).grad s.val seed)
    (fun k hk => by simp [Expr.mkBinary, Expr.denote, hls, hrs, hw, x, y]) fun _ => rfl
  refine ⟨hsh, ⟨_, hb⟩, fun hop hy => ⟨fun k => op.bl 1 (x k) y (op.real false (x k) y), fun k => op.br 1 (x k) y (op.real false (x k) y), _, _,
    fun k hk => op.hasDerivAt hop hy, behaves wl hal _, behaves wr har _, hb.congr (fun _ _ => rfl) fun a => ?_⟩⟩
  simp only [Expr.mkBinary, Expr.grad, hop, Bool.false_eq_true, if_false]
  refine congrArg₂ (· + ·) (congrFun (grad_congr _ _ _ _ wl fun k hk => ?_) a) (congrFun (grad_congr _ _ _ _ wr fun k hk => ?_) a)
  · simp only [collapse, hw, hls, hrs, Bool.not_false, Bool.false_and, if_true, bcast, Shape.bidx, Bool.false_eq_true, if_false, Expr.denote]
    exact op.bl_linear _ _ _ _
  · simp only [collapse, hw, hls, hrs, hw2, Bool.not_false, Bool.and_self, if_true, sumN_eq, bcast, Shape.bidx, Bool.false_eq_true, if_false, Expr.denote]
    exact Finset.sum_congr rfl fun k _ => op.br_linear _ _ _ _

/-! ### Counterexamples and concrete cases -/

namespace Sample

/-- 2×2 matrix variable: value cells 3 to 6, adjoint cells 3 to 6 -/
def A : View := ⟨.mat 2 2, some 3, some 3⟩
/-- empty vector variable -/
def v0 : View := ⟨.vec 0, none, none⟩

/-- x = 2, v = (0, 0), A = (2 1; 1 3) -/
noncomputable def sA : St ℝ :=
  ⟨fun a => if a = 0 then 2 else if a < 3 then 0 else if a = 3 then 2 else if a = 6 then 3 else 1, fun _ => 0, fun a => decide (a < 7), fun a => decide (a < 7)⟩

/-- A = (1 0; 0 0) -/
noncomputable def sB : St ℝ := ⟨fun a => if a = 3 then 1 else 0, fun _ => 0, fun a => decide (a < 7), fun a => decide (a < 7)⟩

theorem alive_sA {e : Expr ℝ} (h : ∀ w ∈ e.vars, w = x ∨ w = v ∨ w = A) (hc : e.cviews = []) : e.Alive sA.vok sA.aok := by
  constructor
  · intro w hw
    rcases h w hw with rfl | rfl | rfl <;> constructor <;> intro k hk <;>
      simp [x, v, A, View.size, Shape.size, Shape.scl, Shape.vec, Shape.mat, sA] at hk ⊢ <;> omega
  · intro c h; rw [hc] at h; cases h

end Sample

/-- **C11 is false for array branches of different C++ types**: `if_else(x < x, v, (1, 1))`; the conditional operator returns a reference to a temporary
(if_else.hpp:66-72), reading it is undefined. -/
theorem C11_false_for_mixed_branches :
    evaluate (bindExpr (.mkIfElse (.mkBinary .lt (.var Sample.x) (.var Sample.x)) (.var Sample.v) (.const (.vec 2) fun _ => 1)) 10 10 0 0 Sample.s).1
      (bindExpr (.mkIfElse (.mkBinary .lt (.var Sample.x) (.var Sample.x)) (.var Sample.v) (.const (.vec 2) fun _ => 1)) 10 10 0 0 Sample.s).2 = none := rfl

/-- **C20 is false for a singular matrix**: for `A = (1 0; 0 0)` the derivative of `det(A)` with respect to the last entry (cell 6) is 1, but the backward pass with seed 1
adds nothing to its adjoint (det.hpp:58-63, 113-121). -/
theorem C20_false_at_singular [LawfulLinAlg] :
    HasDerivAt (fun t => (matOf 2 2 fun k => Function.update Sample.sB.val 6 t (3 + k)).det) 1 (Sample.sB.val 6) ∧
    Behaves (.mkReduce (.det .lu) (.cons (.var Sample.A) .nil)) Sample.sB (fun _ => (matOf 2 2 fun k => Sample.sB.val (3 + k)).det) (fun _ => 1) fun _ => 0 := by
  have hz : (toMat 2 ((Expr.var Sample.A).denote Sample.sB.val)).det = 0 := by
    simp [Matrix.det_fin_two, toMat, Expr.denote, Sample.A, Sample.sB, addr]
  constructor
  · have : (fun t => (matOf 2 2 fun k => Function.update Sample.sB.val 6 t (3 + k)).det) = fun t => t := by
      funext t
      simp [Matrix.det_fin_two, matOf, Function.update, Sample.sB]
    rw [this]
    exact hasDerivAt_id' _
  · have hwf : (Expr.mkReduce (.det .lu) (.cons (.var Sample.A) .nil) : Expr ℝ).WF :=
      ⟨⟨trivial, trivial⟩, rfl, .inl ⟨_, rfl, ⟨rfl, rfl⟩, fun h => by cases h⟩⟩
    have hal : (Expr.mkReduce (.det .lu) (.cons (.var Sample.A) .nil) : Expr ℝ).Alive Sample.sB.vok Sample.sB.aok :=
      Sample.alive_sA (fun w hw => by simp [Expr.mkReduce, Expr.vars, Exprs.varss] at hw; exact .inr (.inr hw)) rfl
    refine (behaves hwf hal fun _ => 1).congr (fun _ _ => ?_) fun a => ?_
    · exact (det_real_eq .lu (Expr.var Sample.A : Expr ℝ).shape rfl _ trivial).1
    · have hv : (RedOp.det .lu).valid (Expr.var Sample.A : Expr ℝ).shape.rows (trunc (Expr.var Sample.A : Expr ℝ).shape.size ((Expr.var Sample.A).denote Sample.sB.val)) = false :=
        invalid_lu (.inl rfl) rfl hz
      simp only [Expr.mkReduce, Expr.grad, Exprs.grads, Exprs.denotes, List.map_cons, List.map_nil, RedOp.bmap, RedOp.bmap1, hv, Bool.not_false, Bool.or_true, if_true, add_zero]

/-- **C29 is false for an empty array**: the node `x + v` with an empty vector `v` gets size 1 (binary.hpp:77-82), its evaluation reads outside of `v`. -/
theorem C29_false_for_empty : (Expr.mkBinary .add (.var Sample.x) (.var Sample.v0) : Expr ℝ).shape = .vec 1 ∧
    evaluate (bindExpr (.mkBinary .add (.var Sample.x) (.var Sample.v0)) 10 10 0 0 Sample.s).1
      (bindExpr (.mkBinary .add (.var Sample.x) (.var Sample.v0)) 10 10 0 0 Sample.s).2 = none := ⟨rfl, rfl⟩

/-- C11 applies: `if_else(x < x, A, A * x)`. -/
example : (Expr.mkIfElse (.mkBinary .lt (.var Sample.x) (.var Sample.x)) (.var Sample.A) (.mkBinary .mul (.var Sample.A) (.var Sample.x)) : Expr ℝ).WF ∧
    (Expr.mkIfElse (.mkBinary .lt (.var Sample.x) (.var Sample.x)) (.var Sample.A) (.mkBinary .mul (.var Sample.A) (.var Sample.x)) : Expr ℝ).Alive Sample.sA.vok Sample.sA.aok := by
  refine ⟨⟨⟨⟨rfl, rfl⟩, ⟨rfl, rfl⟩, ⟨rfl, rfl⟩, by decide, ?_⟩, trivial, ⟨trivial, ⟨rfl, rfl⟩, trivial, by decide, ?_⟩, rfl, rfl, rfl, rfl, .inr rfl⟩, Sample.alive_sA ?_ rfl⟩
  · intro h; cases h
  · exact fun _ => ⟨fun h => Bool.noConfusion h, fun h => Bool.noConfusion h⟩
  · intro w hw
    simp [Expr.mkIfElse, Expr.mkBinary, Expr.vars] at hw
    tauto

/-- C12 applies: `x < v` with `x = 2` and `v = (0, 0)` evaluates to `(0, 0)`. -/
example : ∃ s1 ref g, evaluate (bindExpr (.mkBinary .lt (.var Sample.x) (.var Sample.v)) 10 10 0 0 Sample.sA).1
      (bindExpr (.mkBinary .lt (.var Sample.x) (.var Sample.v)) 10 10 0 0 Sample.sA).2 = some (s1, ref) ∧ ref.read s1 2 = some g ∧ g 1 = 0 := by
  obtain ⟨s1, ref, g, h1, h2, -, h3⟩ := C12_comparison (op := .lt) (l := .var Sample.x) (r := .var Sample.v) (s := Sample.sA) rfl
    ⟨⟨rfl, rfl⟩, rfl, rfl, by decide, fun h => by cases h⟩ (Sample.alive_sA (by simp [Expr.mkBinary, Expr.vars]) rfl) (qv := 10) (qa := 10) (jv := 0) (ja := 0)
    (by constructor <;> intro k _ <;> simp [Sample.sA] <;> omega) fun _ => 1
  refine ⟨s1, ref, g, h1, h2, ?_⟩
  rw [(h3 1 (by decide)).1 rfl]
  simp [ind, Expr.denote, Expr.shape, Expr.view, Sample.x, Sample.v, Sample.sA, addr, Shape.isScl, Shape.scl, Shape.vec]

/-- C18 applies to the vector `v = (0, 0)` with two zeros -/
example : ∃ d, Behaves (.var Sample.v) Sample.sA ((Expr.var Sample.v).denote Sample.sA.val)
      (fun k => 1 * ∏ j ∈ (Finset.range 2).erase k, (Expr.var Sample.v).denote Sample.sA.val j) d ∧
    Behaves (.mkProdElem (.var Sample.v)) Sample.sA (fun _ => ∏ j ∈ Finset.range 2, (Expr.var Sample.v).denote Sample.sA.val j) (fun _ => 1) d :=
  C18_prod_elements (e := .var Sample.v) ⟨rfl, rfl, rfl⟩ (Sample.alive_sA (by simp [Expr.vars]) rfl) fun _ => 1

/-- C18 applies to the range `x, sin(x)` -/
example : (Expr.mkProdIter .scl (.cons (.var Sample.x) (.cons (.mkUnary .sin (.var Sample.x)) .nil)) : Expr ℝ).WF ∧
    (Expr.mkProdIter .scl (.cons (.var Sample.x) (.cons (.mkUnary .sin (.var Sample.x)) .nil)) : Expr ℝ).Alive Sample.sA.vok Sample.sA.aok := by
  refine ⟨⟨⟨⟨rfl, rfl⟩, ⟨⟨rfl, rfl⟩, rfl, fun h => by cases h⟩, trivial⟩, ⟨rfl, rfl⟩, ?_⟩, Sample.alive_sA (by simp [Expr.mkProdIter, Expr.mkUnary, Expr.vars, Exprs.varss]) rfl⟩
  intro e he
  simp [Exprs.toList] at he
  rcases he with rfl | rfl <;> exact ⟨rfl, rfl⟩

/-- C19 applies: `dot(A, v)` -/
example : (Expr.mkDot (.var Sample.A) (.var Sample.v) : Expr ℝ).WF ∧ (Expr.mkDot (.var Sample.A) (.var Sample.v) : Expr ℝ).Alive Sample.sA.vok Sample.sA.aok :=
  ⟨⟨trivial, rfl, rfl, by decide, rfl, rfl, rfl, rfl⟩, Sample.alive_sA (by simp [Expr.mkDot, Expr.vars]) rfl⟩

/-- C19 applies: `transpose(A)`, `norm(A)`, `sum(A)` -/
example : (Expr.mkTranspose (.var Sample.A) : Expr ℝ).WF ∧ (Expr.mkReduce .norm (.cons (.var Sample.A) .nil) : Expr ℝ).WF ∧
    (Expr.mkReduce .sum (.cons (.var Sample.A) .nil) : Expr ℝ).WF ∧ (Expr.var Sample.A : Expr ℝ).Alive Sample.sA.vok Sample.sA.aok :=
  ⟨⟨trivial, by decide, rfl⟩, ⟨⟨trivial, trivial⟩, rfl, .inl ⟨_, rfl, (fun h => by cases h), fun h => by cases h⟩⟩, ⟨⟨trivial, trivial⟩, rfl, .inl ⟨_, rfl, trivial, fun h => by cases h⟩⟩,
    Sample.alive_sA (by simp [Expr.vars]) rfl⟩

/-- C20 and C21 apply to `A = (2 1; 1 3)`, for each policy -/
example [LawfulLinAlg] : (matOf 2 2 ((Expr.var Sample.A).denote Sample.sA.val)).det ≠ 0 ∧ Decomp.lu.Pre 2 ((Expr.var Sample.A).denote Sample.sA.val) ∧
    Decomp.llt.Pre 2 ((Expr.var Sample.A).denote Sample.sA.val) ∧ (toMat 2 ((Expr.var Sample.A).denote Sample.sA.val)).IsSymm := by
  have hs : (toMat 2 ((Expr.var Sample.A).denote Sample.sA.val)).IsSymm := by
    ext i j
    fin_cases i <;> fin_cases j <;> simp [toMat, Expr.denote, Sample.A, Sample.sA, addr]
  refine ⟨?_, trivial, ?_, hs⟩
  · simp [Matrix.det_fin_two, matOf, Expr.denote, Sample.A, Sample.sA, addr]; norm_num
  · refine Matrix.PosDef.of_dotProduct_mulVec_pos (by ext i j; simpa using congrFun₂ hs i j) fun y hy => ?_
    have h2 : y 0 ≠ 0 ∨ y 1 ≠ 0 := by
      by_contra h
      push Not at h
      exact hy (by ext i; fin_cases i <;> simp [h])
    simp [Matrix.mulVec, dotProduct, Fin.sum_univ_two, toMat, Expr.denote, Sample.A, Sample.sA, addr]
    rcases h2 with h | h <;> nlinarith [sq_nonneg (y 0 + y 1), sq_nonneg (y 0), sq_nonneg (y 1), sq_pos_of_ne_zero h]

/-- C29 applies: `v / x` with `x = 2` -/
example : ∃ p q : ℕ → ℝ, ∃ dl dr, (∀ k < 2, HasDerivAt (fun t => t / 2) (p k) (Sample.sA.val (1 + k)) ∧ HasDerivAt (fun t => Sample.sA.val (1 + k) / t) (q k) 2) ∧
    Behaves (.var Sample.v) Sample.sA ((Expr.var Sample.v).denote Sample.sA.val) (fun k => 1 * p k) dl ∧
    Behaves (.var Sample.x) Sample.sA ((Expr.var Sample.x).denote Sample.sA.val) (fun _ => ∑ k ∈ Finset.range 2, 1 * q k) dr ∧
    Behaves (.mkBinary .div (.var Sample.v) (.var Sample.x)) Sample.sA (fun k => Sample.sA.val (1 + k) / 2) (fun _ => 1) fun a => dl a + dr a := by
  have h := (C29_array_scalar_partial (op := .div) (l := .var Sample.v) (r := .var Sample.x) (s := Sample.sA) rfl ⟨rfl, rfl⟩ (by decide) rfl (by decide) rfl rfl
    (Sample.alive_sA (by simp [Expr.vars]) rfl) (Sample.alive_sA (by simp [Expr.vars]) rfl) fun _ => 1).2.2 rfl
    fun _ => by simp [Expr.denote, Sample.x, Sample.sA, addr]
  simpa [Expr.denote, Sample.x, Sample.v, Sample.sA, addr, BOp.real, Expr.size, Expr.shape, Expr.view, Shape.size, Shape.vec] using h

end FastAD
