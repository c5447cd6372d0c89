import Verif.Spec.Nodes
import Verif.Proof.Session
import Verif.Proof.Calculus

namespace FastAD

variable [HasInf ℝ] [LinAlg ℝ]
set_option linter.unusedSectionVars false

theorem behaves {e : Expr ℝ} {s : St ℝ} (hwf : e.WF) (hal : e.Alive s.vok s.aok) (seed : ℕ → ℝ) :
    Behaves e s (e.denote s.val) seed (e.grad s.val seed) := by
  intro qv qa jv ja hf
  have hb := bindExpr_bnd (jv := jv) (ja := ja) hwf hal hf
  have hv : ∀ a, s.vok a = true → ¬ (qv ≤ a ∧ a < qv + e.bindSize.val) := by
    rintro a ha ⟨h1, h2⟩
    have := hf.1 (a - qv) (by omega)
    rw [Nat.add_sub_cancel' h1, ha] at this
    cases this
  have hA : ∀ a, s.aok a = true → ¬ (qa ≤ a ∧ a < qa + e.bindSize.adj) := by
    rintro a ha ⟨h1, h2⟩
    have := hf.2 (a - qa) (by omega)
    rw [Nat.add_sub_cancel' h1, ha] at this
    cases this
  have hval : ∀ a, s.vok a = true → (bindExpr e qv qa jv ja s).2.val a = s.val a := fun a ha => if_neg (hv a ha)
  obtain ⟨s1, r, h1⟩ := hb.evaluate (m := s.val) fun a ha => hval a (reads_alive hal a ha)
  obtain ⟨s2, h2⟩ := (show Bnd _ _ _ _ s1.vok s1.aok by rw [h1.vok, h1.aok]; exact hb).evaluateAdj h1.cached seed
  refine ⟨s1, r, _, s2, h1.run, h1.value s1 rfl rfl, fun k hk => trunc_of_lt hk, h2.run, h2.val, fun a ha => ?_⟩
  rw [h2.adj a (by simpa [blockA, mem_rng, addr_some] using hA a ha), h1.adj]
  congr 1
  exact if_neg (hA a ha)

theorem Behaves.congr {e : Expr ℝ} {s : St ℝ} {f f' seed d d' : ℕ → ℝ} (h : Behaves e s f seed d) (hf : ∀ k < e.size, f k = f' k) (hd : ∀ a, d a = d' a) :
    Behaves e s f' seed d' := by
  intro qv qa jv ja hfr
  obtain ⟨s1, r, g, s2, h1, h2, h3, h4, h5, h6⟩ := h qv qa jv ja hfr
  exact ⟨s1, r, g, s2, h1, h2, fun k hk => (h3 k hk).trans (hf k hk), h4, h5, fun a ha => by rw [h6 a ha, hd]⟩

theorem colMajor_of_lt {r c : ℕ} (M : Matrix (Fin r) (Fin c) ℝ) {i j : ℕ} (hi : i < r) (hj : j < c) : colMajor M (i + j * r) = M ⟨i, hi⟩ ⟨j, hj⟩ := by
  have h1 : i + j * r < r * c := by nlinarith
  have hr : 0 < r := by omega
  simp only [colMajor, h1, dif_pos]
  congr 1 <;> apply Fin.ext <;> simp [mod_idx hi, div_idx hi]

omit [HasInf ℝ] [LinAlg ℝ] in
theorem colMajor_eq {r c : ℕ} (M : Matrix (Fin r) (Fin c) ℝ) {k : ℕ} (hk : k < r * c) :
    ∃ (h1 : k % r < r) (h2 : k / r < c), colMajor M k = M ⟨k % r, h1⟩ ⟨k / r, h2⟩ := by
  have hr : 0 < r := Nat.pos_of_ne_zero (by rintro rfl; simp at hk)
  refine ⟨Nat.mod_lt _ hr, Nat.div_lt_of_lt_mul hk, ?_⟩
  simp only [colMajor, hk, dif_pos]

theorem alive_append {e x : Expr ℝ} {vok aok : ℕ → Bool} (h : e.Alive vok aok) (h1 : ∀ v ∈ x.vars, v ∈ e.vars) (h2 : ∀ c ∈ x.cviews, c ∈ e.cviews) :
    x.Alive vok aok := ⟨fun v hv => h.1 v (h1 v hv), fun c hc => h.2 c (h2 c hc)⟩

theorem grads_sum (m : ℕ → ℝ) (es : Exprs ℝ) (sd : ℕ → ℕ → ℝ) (i a : ℕ) : es.grads m (fun i => some (sd i)) i a =
    ∑ j ∈ Finset.range es.toList.length, (es.toList.getD j (.const .scl fun _ => 0)).grad m (sd (i + j)) a := by
  induction es using Exprs.rec (motive_1 := fun _ => True) generalizing i with
  | nil => simp [Exprs.grads, Exprs.toList]
  | cons e es _ ih =>
    simp only [Exprs.grads, Exprs.toList, List.length_cons, ih]
    rw [Finset.sum_range_succ', add_comm]
    simp [add_assoc, add_comm 1]
  | _ => trivial

theorem denotes_eq (m : ℕ → ℝ) (es : Exprs ℝ) : es.denotes m = es.toList.map fun x => (x.shape, x.denote m) := by
  induction es using Exprs.rec (motive_1 := fun _ => True) with
  | nil => rfl
  | cons e es _ ih => simp [Exprs.denotes, Exprs.toList, ih]
  | _ => trivial

omit [HasInf ℝ] [LinAlg ℝ] in
theorem mem_leaves {es : Exprs ℝ} {x : Expr ℝ} (hx : x ∈ es.toList) : (∀ v ∈ x.vars, v ∈ es.varss) ∧ ∀ c ∈ x.cviews, c ∈ es.cviewss := by
  induction es using Exprs.rec (motive_1 := fun _ => True) with
  | nil => simp [Exprs.toList] at hx
  | cons e es _ ih =>
    simp only [Exprs.toList, List.mem_cons] at hx
    simp only [Exprs.varss, Exprs.cviewss, List.mem_append]
    rcases hx with rfl | hx
    · exact ⟨fun v hv => Or.inl hv, fun c hc => Or.inl hc⟩
    · exact ⟨fun v hv => Or.inr ((ih hx).1 v hv), fun c hc => Or.inr ((ih hx).2 c hc)⟩
  | _ => trivial

omit [HasInf ℝ] [LinAlg ℝ] in
theorem WFs_mem {es : Exprs ℝ} (h : es.WFs) {x : Expr ℝ} (hx : x ∈ es.toList) : x.WF := by
  induction es using Exprs.rec (motive_1 := fun _ => True) with
  | nil => simp [Exprs.toList] at hx
  | cons e es _ ih =>
    simp only [Exprs.toList, List.mem_cons] at hx
    rcases hx with rfl | hx
    · exact h.1
    · exact ih h.2 hx
  | _ => trivial

theorem posDef_isSymm {n : ℕ} {M : Matrix (Fin n) (Fin n) ℝ} (h : M.PosDef) : M.IsSymm := by
  ext i j
  simpa using h.isHermitian.apply i j

theorem decomp_ok [LawfulLinAlg] {p : Decomp} {sh : Shape} (hsq : sh.rows = sh.cols) {f : ℕ → ℝ} (h : p.Pre sh.rows f) : p.Ok sh f := by
  have hsz : sh.size = sh.rows * sh.rows := by rw [Shape.size, ← hsq]
  cases p with
  | lu => trivial
  | ldlt => simpa [Decomp.Ok, Decomp.Pre, hsz] using h
  | llt =>
    have hs := posDef_isSymm (M := toMat sh.rows f) h
    refine ⟨?_, hs⟩
    rw [LawfulLinAlg.lltOk_iff, hsz, symMat_eq _ _ (by rw [toMat_trunc]; exact hs), toMat_trunc]
    exact h

section
variable {p : Decomp} {e : Expr ℝ} {m : ℕ → ℝ} {w : View}

theorem beq_zero_of_ne {x : ℝ} (h : x ≠ 0) : Fn.beq x 0 = false := by simp [Fn.beq, h]

theorem invT_entry [LawfulLinAlg] (hsq : e.shape.rows = e.shape.cols) (hok : p.Ok e.shape (e.denote m))
    (hdet : (toMat e.shape.rows (e.denote m)).det ≠ 0) {k : ℕ} (hk : k < e.size) :
    ∃ (h1 : k % e.shape.rows < e.shape.rows) (h2 : k / e.shape.rows < e.shape.rows),
      invT p e.shape.rows (trunc e.shape.size (e.denote m)) k = (toMat e.shape.rows (e.denote m))⁻¹ ⟨_, h2⟩ ⟨_, h1⟩ ∧
      ∀ M : Matrix (Fin e.shape.rows) (Fin e.shape.rows) ℝ, colMajor M k = M ⟨_, h1⟩ ⟨_, h2⟩ := by
  have hk : k < e.shape.rows * e.shape.rows := by
    have : e.size = e.shape.rows * e.shape.cols := rfl
    rw [← hsq] at this; omega
  obtain ⟨h1, h2, -⟩ := colMajor_eq (0 : Matrix (Fin e.shape.rows) (Fin e.shape.rows) ℝ) hk
  have hi := invT_eq p e.shape hsq _ hok hdet ⟨_, h1⟩ ⟨_, h2⟩
  rw [Nat.mod_add_div'] at hi
  exact ⟨h1, h2, hi, fun M => (colMajor_eq M hk).2.2⟩

theorem det_grad [LawfulLinAlg] (hwf : e.WF) (hsq : e.shape.rows = e.shape.cols) (hok : p.Ok e.shape (e.denote m))
    (hdet : (toMat e.shape.rows (e.denote m)).det ≠ 0) {seed : ℕ → ℝ} (h0 : seed 0 ≠ 0) (a : ℕ) :
    (Expr.reduce (.det p) (.cons e .nil) w).grad m seed a = e.grad m (colMajor (seed 0 • (toMat e.shape.rows (e.denote m)).adjugate.transpose)) a := by
  have hv := (valid_det p e.shape hsq _ hok hdet).1
  have hd := (det_real_eq p e.shape hsq _ hok).1
  simp only [Expr.grad, Exprs.grads, Exprs.denotes, List.map_cons, List.map_nil, RedOp.bmap, RedOp.bmap1, add_zero, Expr.denote, RedOp.reals, hv, hd, beq_zero_of_ne h0,
    Bool.not_true, Bool.or_false, Bool.false_eq_true, if_false]
  refine congrFun (grad_congr _ _ _ _ hwf fun k hk => ?_) a
  obtain ⟨h1, h2, h3, h4⟩ := invT_entry hsq hok hdet hk
  rw [h3, h4, Matrix.inv_def]
  simp only [Matrix.smul_apply, smul_eq_mul, Matrix.transpose_apply, Ring.inverse_eq_inv']
  field_simp

theorem logDet_grad [LawfulLinAlg] (hwf : e.WF) (hsq : e.shape.rows = e.shape.cols) (hok : p.Ok e.shape (e.denote m))
    (hdet : (toMat e.shape.rows (e.denote m)).det ≠ 0) {seed : ℕ → ℝ} (h0 : seed 0 ≠ 0) (a : ℕ) :
    (Expr.reduce (.logDet p) (.cons e .nil) w).grad m seed a = e.grad m (colMajor (seed 0 • (toMat e.shape.rows (e.denote m))⁻¹.transpose)) a := by
  have hv := (valid_det p e.shape hsq _ hok hdet).2
  simp only [Expr.grad, Exprs.grads, Exprs.denotes, List.map_cons, List.map_nil, RedOp.bmap, RedOp.bmap1, add_zero, hv, beq_zero_of_ne h0,
    Bool.not_true, Bool.or_false, Bool.false_eq_true, if_false]
  refine congrFun (grad_congr _ _ _ _ hwf fun k hk => ?_) a
  obtain ⟨h1, h2, h3, h4⟩ := invT_entry hsq hok hdet hk
  rw [h3, h4]
  rfl

theorem invalid_lu [LawfulLinAlg] {op : RedOp} (hop : op = .det .lu ∨ op = .logDet .lu) (hsq : e.shape.rows = e.shape.cols)
    (hdet : (toMat e.shape.rows (e.denote m)).det = 0) : op.valid e.shape.rows (trunc e.shape.size (e.denote m)) = false := by
  have hsz : e.shape.size = e.shape.rows * e.shape.rows := by rw [Shape.size, ← hsq]
  rcases hop with rfl | rfl <;>
  · rw [← Bool.not_eq_true]
    simp only [RedOp.valid, LawfulLinAlg.invertible_iff, hsz, toMat_trunc, hdet, ne_eq, not_true_eq_false, not_false_eq_true]

theorem invalid_ldlt [LawfulLinAlg] (hsq : e.shape.rows = e.shape.cols) (hok : LinAlg.ldltOk e.shape.rows (trunc (e.shape.rows * e.shape.rows) (e.denote m)) = true)
    (hs : (toMat e.shape.rows (e.denote m)).IsSymm) (hdet : (toMat e.shape.rows (e.denote m)).det = 0) :
    (RedOp.logDet .ldlt).valid e.shape.rows (trunc e.shape.size (e.denote m)) = false := by
  have hsz : e.shape.size = e.shape.rows * e.shape.rows := by rw [Shape.size, ← hsq]
  simp only [RedOp.valid, hsz, LawfulLinAlg.symDet_eq _ _ hok]
  rw [symMat_eq _ _ (by rw [toMat_trunc]; exact hs), toMat_trunc, hdet]
  simp [Fn.beq]

theorem invalid_llt [LawfulLinAlg] (hsq : e.shape.rows = e.shape.cols) (hs : (toMat e.shape.rows (e.denote m)).IsSymm)
    (hpd : ¬ (toMat e.shape.rows (e.denote m)).PosDef) : (RedOp.logDet .llt).valid e.shape.rows (trunc e.shape.size (e.denote m)) = false := by
  have hsz : e.shape.size = e.shape.rows * e.shape.rows := by rw [Shape.size, ← hsq]
  rw [← Bool.not_eq_true]
  simp only [RedOp.valid, LawfulLinAlg.lltOk_iff, hsz]
  rw [symMat_eq _ _ (by rw [toMat_trunc]; exact hs), toMat_trunc]
  exact hpd

theorem logDet_invalid (hv : (RedOp.logDet p).valid e.shape.rows (trunc e.shape.size (e.denote m)) = false) (seed : ℕ → ℝ) (a : ℕ) :
    (Expr.reduce (.logDet p) (.cons e .nil) w).grad m seed a = 0 := by
  simp [Expr.grad, Exprs.grads, Exprs.denotes, RedOp.bmap, RedOp.bmap1, hv]

theorem det_seed_zero (hop : (∃ p, op = RedOp.det p) ∨ ∃ p, op = .logDet p) {seed : ℕ → ℝ} (h0 : seed 0 = 0) (a : ℕ) :
    (Expr.reduce op (.cons e .nil) w).grad m seed a = 0 := by
  rcases hop with ⟨p, rfl⟩ | ⟨p, rfl⟩ <;> simp [Expr.grad, Exprs.grads, Exprs.denotes, RedOp.bmap, RedOp.bmap1, h0, Fn.beq]

end

omit [HasInf ℝ] [LinAlg ℝ] in
theorem BOp.hasDerivAt (op : BOp) (hop : op.isComparison = false) {x y : ℝ} (hy : op = .div → y ≠ 0) :
    HasDerivAt (fun t => op.real false t y) (op.bl 1 x y (op.real false x y)) x ∧
    HasDerivAt (fun t => op.real false x t) (op.br 1 x y (op.real false x y)) y := by
  cases op <;> simp only [BOp.isComparison, Bool.true_eq_false] at hop <;> simp only [BOp.real, BOp.bl, BOp.br]
  · exact ⟨(hasDerivAt_id' x).add_const y, (hasDerivAt_id' y).const_add x⟩
  · exact ⟨(hasDerivAt_id' x).sub_const y, (hasDerivAt_id' y).const_sub x⟩
  · exact ⟨(hasDerivAt_id' x).mul_const y, by simpa using (hasDerivAt_id' y).const_mul x⟩
  · refine ⟨(hasDerivAt_id' x).div_const y, ?_⟩
    have h := (hasDerivAt_const y x).div (hasDerivAt_id' y) (hy rfl)
    have hy := hy rfl
    convert! h using 1
    field_simp
    ring

theorem binShape_left {a b : Shape} (ha : a.Ok) (hb : b.Ok) (hka : a.kind = .scl) (hkb : b.kind ≠ .scl) (hne : b.size ≠ 0) : Expr.binShape a b = b := by
  obtain ⟨ka, ra, ca⟩ := a
  obtain ⟨kb, rb, cb⟩ := b
  simp only at hka hkb
  subst hka
  simp only [Shape.Ok] at ha hb
  obtain ⟨rfl, rfl⟩ := ha
  simp only [Shape.size, ne_eq, mul_eq_zero, not_or] at hne
  have h1 : max 1 rb = rb := by omega
  have h2 : max 1 cb = cb := by omega
  cases kb
  · exact absurd rfl hkb
  · simp only at hb; subst hb; simp [Expr.binShape, Shape.ofDims, Shape.maxKind, h1]
  · simp [Expr.binShape, Shape.ofDims, Shape.maxKind, h1, h2]

theorem binShape_right {a b : Shape} (ha : a.Ok) (hb : b.Ok) (hka : a.kind ≠ .scl) (hkb : b.kind = .scl) (hne : a.size ≠ 0) : Expr.binShape a b = a := by
  obtain ⟨ka, ra, ca⟩ := a
  obtain ⟨kb, rb, cb⟩ := b
  simp only at hka hkb
  subst hkb
  simp only [Shape.Ok] at ha hb
  obtain ⟨rfl, rfl⟩ := hb
  simp only [Shape.size, ne_eq, mul_eq_zero, not_or] at hne
  have h1 : max ra 1 = ra := by omega
  have h2 : max ca 1 = ca := by omega
  cases ka
  · exact absurd rfl hka
  · simp only at ha; subst ha; simp [Expr.binShape, Shape.ofDims, Shape.maxKind, h1]
  · simp [Expr.binShape, Shape.ofDims, Shape.maxKind, h1, h2]

end FastAD
