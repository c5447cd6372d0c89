import Verif.Spec.Build
import Verif.Proof.Api
import Verif.Proof.Calculus

/-!
# Constant folding does not change an expression
-/

namespace FastAD

variable [HasInf ℝ] [LinAlg ℝ]
set_option linter.unusedSectionVars false

/-- `e'` can replace `e` when memory has the values `m` -/
structure Same (m : ℕ → ℝ) (e e' : Expr ℝ) : Prop where
  shape : e'.shape = e.shape
  wf : e'.WF
  isIf : e'.isIf = true → e.isIf = true
  den : ∀ k < e.size, e'.denote m k = e.denote m k
  grad : ∀ f a, e'.grad m f a = e.grad m f a
  vars : ∀ v ∈ e'.vars, v ∈ e.vars
  cviews : ∀ c ∈ e'.cviews, c ∈ e.cviews

theorem Same.rfl {m : ℕ → ℝ} {e : Expr ℝ} (h : e.WF) : Same m e e :=
  ⟨Eq.refl _, h, id, fun _ _ => Eq.refl _, fun _ _ => Eq.refl _, fun _ => id, fun _ => id⟩

theorem Same.size {m : ℕ → ℝ} {e e' : Expr ℝ} (h : Same m e e') : e'.size = e.size := by
  rw [Expr.size, h.shape, Expr.size]

/-- a folded node -/
theorem Same.const {m : ℕ → ℝ} {e : Expr ℝ} {sh : Shape} {c : ℕ → ℝ} (hwf : e.WF) (hs : sh = e.shape)
    (hc : ∀ k < e.size, c k = e.denote m k) (hg : ∀ f a, e.grad m f a = 0) : Same m e (.const sh c) := by
  subst hs
  refine ⟨Eq.refl _, hwf.shapeOk, by simp [Expr.isIf], fun k hk => hc k hk, fun f a => (hg f a).symm, ?_, ?_⟩ <;>
    simp [Expr.vars, Expr.cviews]

/-- a constant receives no adjoint -/
theorem grad_isConstant {m : ℕ → ℝ} {e : Expr ℝ} (h : e.isConstant = true) (f : ℕ → ℝ) (a : ℕ) : e.grad m f a = 0 := by
  cases e <;> simp_all [Expr.isConstant, Expr.grad]

theorem Same.grad_zero {m : ℕ → ℝ} {e e' : Expr ℝ} (h : Same m e e') (hc : e'.isConstant = true) (f : ℕ → ℝ) (a : ℕ) :
    e.grad m f a = 0 := by
  rw [← h.grad, grad_isConstant hc]

/-- values of a constant read while building -/
theorem constVal_ok {m : ℕ → ℝ} {s : St ℝ} {e e' : Expr ℝ} (h : Same m e e') (hc : e'.isConstant = true)
    (hal : ∀ c ∈ e.cviews, accessible s.vok c.2 c.1.size)
    (hm : ∀ c ∈ e.cviews, ∀ k < c.1.size, s.val (addr c.2 + k) = m (addr c.2 + k)) :
    constVal s e' = some (trunc e.size (e.denote m)) := by
  have hden := h.den
  have hsz := h.size
  cases e' <;> simp [Expr.isConstant] at hc
  case const sh c =>
    simp only [constVal, Expr.getRef, Ref.read, Option.some.injEq]
    rw [hsz]
    exact trunc_congr hden
  case cview sh p =>
    have h1 := h.cviews (sh, p) (by simp [Expr.cviews])
    have hs : (Expr.cview sh p : Expr ℝ).size = sh.size := Eq.refl _
    simp only [constVal, Expr.getRef, Ref.read]
    show readCells s.val s.vok p (Expr.cview sh p : Expr ℝ).size = _
    rw [hs, readCells_eq (hal _ h1)]
    rw [hs] at hsz
    rw [hsz]
    congr 1
    refine trunc_congr fun k hk => ?_
    rw [← hden k hk, hm _ h1 k (by simpa [hsz] using hk)]
    rfl

/-! ### Replacing the operands of a node -/

theorem Same.unary {m : ℕ → ℝ} {op : UOp} {e e' : Expr ℝ} (hwf : (Expr.mkUnary op e).WF) (h : Same m e e') :
    Same m (.mkUnary op e) (.mkUnary op e') := by
  refine ⟨h.shape, ⟨h.wf, Eq.refl _, fun hi => ?_⟩, by simp [Expr.mkUnary, Expr.isIf], fun k hk => ?_, fun f a => ?_, h.vars, h.cviews⟩
  · have := hwf.2.2 (h.isIf hi)
    rwa [← h.shape] at this
  · simp only [Expr.mkUnary, Expr.denote]
    rw [h.den k hk]
  · simp only [Expr.mkUnary, Expr.grad, Expr.denote]
    rw [h.grad]
    exact congrFun (grad_congr m e _ _ hwf.1 fun k hk => by rw [h.den k hk]) a

/-- index of a broadcast operand -/
theorem bidx_lt {e : Expr ℝ} {w : Shape} (hok : e.shape.Ok) (hd : e.shape.isScl = true ∨ sameDims e.shape w) {k : ℕ} (hk : k < w.size) :
    (if e.shape.isScl = true then 0 else k) < e.size := by
  split
  · rename_i hs; rw [Expr.size, hok.size_scl hs]; omega
  · rename_i hs
    rcases hd with h | h
    · exact absurd h hs
    · simpa [Expr.size, Shape.size, h.1, h.2] using hk

theorem Same.binary {m : ℕ → ℝ} {op : BOp} {l r l' r' : Expr ℝ} (hwf : (Expr.mkBinary op l r).WF) (hl : Same m l l')
    (hr : Same m r r') : Same m (.mkBinary op l r) (.mkBinary op l' r') := by
  obtain ⟨wfl, wfr, hok, hd, hif⟩ := hwf
  have hden : ∀ k < (Expr.binShape l.shape r.shape).size,
      (Expr.mkBinary op l' r').denote m k = (Expr.mkBinary op l r).denote m k := by
    intro k hk
    simp only [Expr.mkBinary, Expr.denote, hl.shape, hr.shape]
    rw [hl.den _ (bidx_lt wfl.shapeOk hd.1 hk), hr.den _ (bidx_lt wfr.shapeOk hd.2.1 hk)]
  refine ⟨?_, ⟨hl.wf, hr.wf, ?_, ?_, fun hc => ⟨fun hi => ?_, fun hi => ?_⟩⟩, by simp [Expr.mkBinary, Expr.isIf], hden, fun f a => ?_, ?_, ?_⟩
  · show Expr.binShape l'.shape r'.shape = Expr.binShape l.shape r.shape
    rw [hl.shape, hr.shape]
  · rw [hl.shape, hr.shape]; exact hok
  · rw [hl.shape, hr.shape]; exact hd
  · rw [hl.shape]; exact (hif hc).1 (hl.isIf hi)
  · rw [hr.shape]; exact (hif hc).2 (hr.isIf hi)
  · have hden' := hden
    simp only [Expr.mkBinary] at hden' ⊢
    simp only [Expr.grad, hl.shape, hr.shape] at hden' ⊢
    split
    · rfl
    · rw [hl.grad, hr.grad]
      refine congrArg₂ (· + ·) (congrFun (grad_congr m l _ _ wfl ?_) a) (congrFun (grad_congr m r _ _ wfr ?_) a)
      · refine collapse_congr (fun k hk => ?_) (operand_size wfl.shapeOk hok hd.1)
        have hk' : k < (Expr.binShape l.shape r.shape).size := hk
        simp only [bcast, Shape.bidx]
        rw [hden' k hk', hl.den _ (bidx_lt wfl.shapeOk hd.1 hk'), hr.den _ (bidx_lt wfr.shapeOk hd.2.1 hk')]
      · refine collapse_congr (fun k hk => ?_) (operand_size wfr.shapeOk hok hd.2.1)
        have hk' : k < (Expr.binShape l.shape r.shape).size := hk
        simp only [bcast, Shape.bidx]
        rw [hden' k hk', hl.den _ (bidx_lt wfl.shapeOk hd.1 hk'), hr.den _ (bidx_lt wfr.shapeOk hd.2.1 hk')]
  · intro v hv
    simp only [Expr.mkBinary, Expr.vars, List.mem_append] at hv ⊢
    exact hv.imp (hl.vars v) (hr.vars v)
  · intro v hv
    simp only [Expr.mkBinary, Expr.cviews, List.mem_append] at hv ⊢
    exact hv.imp (hl.cviews v) (hr.cviews v)

theorem Same.pow {m : ℕ → ℝ} {n : ℤ} {e e' : Expr ℝ} (hwf : (Expr.mkPow n e).WF) (h : Same m e e') :
    Same m (.mkPow n e) (.mkPow n e') := by
  refine ⟨h.shape, ⟨h.wf, Eq.refl _, fun hi => hwf.2.2 (h.isIf hi)⟩, by simp [Expr.mkPow, Expr.isIf], fun k hk => ?_, fun f a => ?_,
    h.vars, h.cviews⟩
  · simp only [Expr.mkPow, Expr.denote]
    rw [h.den k hk]
  · simp only [Expr.mkPow, Expr.grad, Expr.denote]
    split
    · exact h.grad _ _
    · split
      · exact h.grad _ _
      · rw [h.grad]
        exact congrFun (grad_congr m e _ _ hwf.1 fun k hk => by rw [h.den k hk]) a

theorem Same.prodElem {m : ℕ → ℝ} {e e' : Expr ℝ} (hwf : (Expr.mkProdElem e).WF) (h : Same m e e') :
    Same m (.mkProdElem e) (.mkProdElem e') := by
  refine ⟨Eq.refl _, ⟨h.wf, Eq.refl _, ?_⟩, by simp [Expr.mkProdElem, Expr.isIf], fun k hk => ?_, fun f a => ?_, h.vars, h.cviews⟩
  · have := hwf.2.2
    by_contra hc
    simp [h.isIf (by simpa using hc)] at this
  · simp only [Expr.mkProdElem, Expr.denote, h.size]
    exact Finset.prod_congr (Eq.refl _) fun j hj => h.den j (Finset.mem_range.1 hj)
  · simp only [Expr.mkProdElem, Expr.grad, h.size]
    rw [h.grad]
    refine congrFun (grad_congr m e _ _ hwf.1 fun k hk => ?_) a
    congr 1
    exact Finset.prod_congr (Eq.refl _) fun j hj => h.den j (Finset.mem_range.1 (Finset.mem_of_mem_erase hj))

theorem Same.transpose {m : ℕ → ℝ} {e e' : Expr ℝ} (hwf : (Expr.mkTranspose e).WF) (h : Same m e e') :
    Same m (.mkTranspose e) (.mkTranspose e') := by
  refine ⟨?_, ⟨h.wf, ?_, Eq.refl _⟩, by simp [Expr.mkTranspose, Expr.isIf], fun k hk => ?_, fun f a => ?_, h.vars, h.cviews⟩
  · show Shape.mat e'.shape.cols e'.shape.rows = Shape.mat e.shape.cols e.shape.rows
    rw [h.shape]
  · rw [h.shape]; exact hwf.2.1
  · simp only [Expr.mkTranspose, Expr.denote, View.null, h.shape]
    apply h.den
    have hk : k < e.shape.cols * e.shape.rows := hk
    have := idx_lt hk
    show _ < e.shape.rows * e.shape.cols
    exact idx_lt' this.2 this.1
  · simp only [Expr.mkTranspose, Expr.grad, h.shape]
    exact h.grad _ _

theorem Same.dot {m : ℕ → ℝ} {l r l' r' : Expr ℝ} (hwf : (Expr.mkDot l r).WF) (hl : Same m l l')
    (hr : Same m r r') : Same m (.mkDot l r) (.mkDot l' r') := by
  obtain ⟨wfl, wfr, hkl, hkr, hcr, hsh, hil, hir⟩ := hwf
  have hcols : r.shape.kind = .vec → r.shape.cols = 1 := by
    intro hk; have := wfr.shapeOk; rw [Shape.Ok, hk] at this; exact this
  have hwr : (Shape.ofDims r.shape.kind l.shape.rows r.shape.cols).rows = l.shape.rows ∧
      (Shape.ofDims r.shape.kind l.shape.rows r.shape.cols).cols = r.shape.cols := by
    cases hk : r.shape.kind
    · exact absurd hk hkr
    · simp [Shape.ofDims, hcols hk]
    · simp [Shape.ofDims]
  have nif : ∀ {e e' : Expr ℝ}, Same m e e' → e.isIf = false → e'.isIf = false := by
    intro e e' h hi
    by_contra hc
    simp [h.isIf (by simpa using hc)] at hi
  refine ⟨?_, ⟨hl.wf, hr.wf, ?_, ?_, ?_, Eq.refl _, nif hl hil, nif hr hir⟩, by simp [Expr.mkDot, Expr.isIf], fun k hk => ?_,
    fun f a => ?_, ?_, ?_⟩
  · show Shape.ofDims r'.shape.kind l'.shape.rows r'.shape.cols = Shape.ofDims r.shape.kind l.shape.rows r.shape.cols
    rw [hl.shape, hr.shape]
  · rw [hl.shape]; exact hkl
  · rw [hr.shape]; exact hkr
  · rw [hl.shape, hr.shape]; exact hcr
  · have hk : k < (Shape.ofDims r.shape.kind l.shape.rows r.shape.cols).rows * (Shape.ofDims r.shape.kind l.shape.rows r.shape.cols).cols := hk
    rw [hwr.1, hwr.2] at hk
    have hk := idx_lt hk
    simp only [Expr.mkDot, Expr.denote, hl.shape]
    refine Finset.sum_congr (Eq.refl _) fun q hq => ?_
    have hq := Finset.mem_range.1 hq
    rw [hl.den _ (idx_lt' hk.1 hq), hr.den]
    show _ < r.shape.rows * r.shape.cols
    rw [← hcr]
    exact idx_lt' hq hk.2
  · simp only [Expr.mkDot, Expr.grad, hl.shape, hr.shape, View.null]
    rw [hl.grad, hr.grad]
    refine congrArg₂ (· + ·) (congrFun (grad_congr m l _ _ wfl fun k hk => ?_) a) (congrFun (grad_congr m r _ _ wfr fun k hk => ?_) a)
    · have hk : k < l.shape.rows * l.shape.cols := hk
      have hk := idx_lt hk
      simp only [dotLSeed, sumN_eq]
      refine Finset.sum_congr (Eq.refl _) fun j hj => ?_
      have hj := Finset.mem_range.1 hj
      rw [hwr.2] at hj
      rw [hr.den]
      show _ < r.shape.rows * r.shape.cols
      rw [← hcr]
      exact idx_lt' hk.2 hj
    · have hk : k < r.shape.rows * r.shape.cols := hk
      rw [← hcr] at hk
      have hk := idx_lt hk
      simp only [dotRSeed, sumN_eq]
      refine Finset.sum_congr (Eq.refl _) fun j hj => ?_
      rw [hl.den _ (idx_lt' (Finset.mem_range.1 hj) hk.1)]
  · intro v hv
    simp only [Expr.mkDot, Expr.vars, List.mem_append] at hv ⊢
    exact hv.imp (hl.vars v) (hr.vars v)
  · intro v hv
    simp only [Expr.mkDot, Expr.cviews, List.mem_append] at hv ⊢
    exact hv.imp (hl.cviews v) (hr.cviews v)

theorem RedOp.real_congr {op : RedOp} {sh : Shape} {x y : ℕ → ℝ} (h : ∀ k < sh.size, x k = y k) : op.real sh x = op.real sh y := by
  have ht := trunc_congr h
  rcases op with _ | _ | d | d | ⟨o, k⟩
  · exact Finset.sum_congr (Eq.refl _) fun k hk => h k (Finset.mem_range.1 hk)
  · exact Finset.sum_congr (Eq.refl _) fun k hk => by rw [h k (Finset.mem_range.1 hk)]
  · cases d <;> simp only [RedOp.real, ht]
  · cases d <;> simp only [RedOp.real, ht]
  · rfl

theorem Same.reduce {m : ℕ → ℝ} {op : RedOp} {e e' : Expr ℝ} (hwf : (Expr.mkReduce op (.cons e .nil)).WF) (h : Same m e e') :
    Same m (.mkReduce op (.cons e .nil)) (.mkReduce op (.cons e' .nil)) := by
  obtain ⟨hso, hif⟩ := reduce_single hwf
  have hden : op.real e'.shape (e'.denote m) = op.real e.shape (e.denote m) := by
    rw [h.shape]; exact RedOp.real_congr h.den
  refine ⟨Eq.refl _, ⟨⟨h.wf, trivial⟩, Eq.refl _, .inl ⟨e', Eq.refl _, by rw [h.shape]; exact hso, fun hi => hif (h.isIf hi)⟩⟩,
    by simp [Expr.mkReduce, Expr.isIf], fun k _ => ?_, fun f a => ?_, ?_, ?_⟩
  · simpa only [Expr.mkReduce, Expr.denote, Exprs.denotes, RedOp.reals] using hden
  · simp only [Expr.mkReduce, Expr.grad, Exprs.grads, Exprs.denotes, Expr.denote, RedOp.reals, List.map, h.shape, add_zero]
    have : trunc e.shape.size (e'.denote m) = trunc e.shape.size (e.denote m) := trunc_congr h.den
    rw [this, ← h.shape, hden, h.shape]
    cases op.bmap (f 0) [(e.shape, trunc e.shape.size (e.denote m))] (op.real e.shape (e.denote m)) 0
    · rfl
    · exact h.grad _ _
  · intro v hv
    simp only [Expr.mkReduce, Expr.vars, Exprs.varss, List.append_nil] at hv ⊢
    exact h.vars v hv
  · intro v hv
    simp only [Expr.mkReduce, Expr.cviews, Exprs.cviewss, List.append_nil] at hv ⊢
    exact h.cviews v hv

theorem Same.ifElse {m : ℕ → ℝ} {c x y c' x' y' : Expr ℝ} (hwf : (Expr.mkIfElse c x y).WF) (hc : Same m c c') (hx : Same m x x')
    (hy : Same m y y') (hret : x.shape.isScl = true ∨ x'.retKind = y'.retKind) :
    Same m (.mkIfElse c x y) (.mkIfElse c' x' y') := by
  obtain ⟨wfc, wfx, wfy, hkc, hic, hsx, hsy, -⟩ := hwf
  have hsy : y.shape = x.shape := hsy
  have h0 : c'.denote m 0 = c.denote m 0 := hc.den 0 (by
    rw [Expr.size, wfc.shapeOk.size_scl (by simp [Shape.isScl, hkc])]; omega)
  refine ⟨hx.shape, ⟨hc.wf, hx.wf, hy.wf, by rw [hc.shape]; exact hkc, ?_, Eq.refl _, ?_, ?_⟩, fun _ => Eq.refl _, fun k hk => ?_, fun f a => ?_, ?_, ?_⟩
  · by_contra h
    simp [hc.isIf (by simpa using h)] at hic
  · show y'.shape = x'.shape
    rw [hx.shape, hy.shape, hsy]
  · rcases hret with h | h
    · left; show x'.shape.isScl = true; rw [hx.shape]; exact h
    · exact .inr h
  · simp only [Expr.mkIfElse, Expr.denote, h0]
    split
    · exact hx.den k hk
    · exact hy.den k (by rw [Expr.size, hsy]; exact hk)
  · simp only [Expr.mkIfElse, Expr.grad, h0]
    split
    · exact hx.grad _ _
    · exact hy.grad _ _
  · intro v hv
    simp only [Expr.mkIfElse, Expr.vars, List.mem_append] at hv ⊢
    exact hv.imp (hc.vars v) (Or.imp (hx.vars v) (hy.vars v))
  · intro v hv
    simp only [Expr.mkIfElse, Expr.cviews, List.mem_append] at hv ⊢
    exact hv.imp (hc.cviews v) (Or.imp (hx.cviews v) (hy.cviews v))

/-! ### Ranges -/

/-- element-wise replacement -/
def Sames (m : ℕ → ℝ) : Exprs ℝ → Exprs ℝ → Prop
  | .nil, .nil => True
  | .cons e es, .cons e' es' => Same m e e' ∧ Sames m es es'
  | _, _ => False

theorem Sames.rec' {m : ℕ → ℝ} {P : Exprs ℝ → Exprs ℝ → Prop} (h0 : P .nil .nil)
    (h1 : ∀ e e' es es', Same m e e' → Sames m es es' → P es es' → P (.cons e es) (.cons e' es')) :
    ∀ es es', Sames m es es' → P es es' := by
  intro es
  induction es using Exprs.rec (motive_1 := fun _ => True) with
  | nil =>
    intro es' h
    cases es' with
    | nil => exact h0
    | cons => exact absurd h (by simp [Sames])
  | cons e es _ ih =>
    intro es' h
    cases es' with
    | nil => exact absurd h (by simp [Sames])
    | cons e' es' => exact h1 _ _ _ _ h.1 h.2 (ih _ h.2)
  | _ => trivial

theorem Sames.wfs {m : ℕ → ℝ} {es es' : Exprs ℝ} (h : Sames m es es') : es'.WFs :=
  Sames.rec' (P := fun _ es' => es'.WFs) trivial (fun _ _ _ _ h _ ih => ⟨h.wf, ih⟩) es es' h

theorem Sames.mem {m : ℕ → ℝ} {es es' : Exprs ℝ} (h : Sames m es es') : ∀ x' ∈ es'.toList, ∃ x ∈ es.toList, Same m x x' := by
  refine Sames.rec' (P := fun es es' => ∀ x' ∈ es'.toList, ∃ x ∈ es.toList, Same m x x') (by simp [Exprs.toList]) ?_ es es' h
  intro e e' es es' h _ ih x' hx
  simp only [Exprs.toList, List.mem_cons] at hx ⊢
  rcases hx with rfl | hx
  · exact ⟨e, .inl (Eq.refl _), h⟩
  · obtain ⟨x, hx, h⟩ := ih x' hx
    exact ⟨x, .inr hx, h⟩

theorem Sames.den {m : ℕ → ℝ} {es es' : Exprs ℝ} (h : Sames m es es') (k : ℕ) : (∀ e ∈ es.toList, k < e.size) →
    (es'.denotes m).map (fun x => x.2 k) = (es.denotes m).map (fun x => x.2 k) := by
  refine Sames.rec' (P := fun es es' => (∀ e ∈ es.toList, k < e.size) →
    (es'.denotes m).map (fun x => x.2 k) = (es.denotes m).map (fun x => x.2 k)) (fun _ => Eq.refl _) ?_ es es' h
  intro e e' es es' h _ ih hk
  simp only [Exprs.denotes, List.map]
  rw [ih fun x hx => hk x (by simp [Exprs.toList, hx]), h.den k (hk e (by simp [Exprs.toList]))]

theorem Sames.grads {m : ℕ → ℝ} {es es' : Exprs ℝ} (h : Sames m es es') : ∀ sd i a, es'.grads m sd i a = es.grads m sd i a := by
  refine Sames.rec' (P := fun es es' => ∀ sd i a, es'.grads m sd i a = es.grads m sd i a) (fun _ _ _ => Eq.refl _) ?_ es es' h
  intro e e' es es' h _ ih sd i a
  simp only [Exprs.grads]
  rw [ih]
  congr 1
  split
  · exact h.grad _ _
  · rfl

theorem Sames.vars {m : ℕ → ℝ} {es es' : Exprs ℝ} (h : Sames m es es') : ∀ v ∈ es'.varss, v ∈ es.varss := by
  intro v hv
  obtain ⟨x', hx', hv⟩ := mem_varss.1 hv
  obtain ⟨x, hx, h⟩ := h.mem x' hx'
  exact mem_varss.2 ⟨x, hx, h.vars v hv⟩

theorem Sames.cviews {m : ℕ → ℝ} {es es' : Exprs ℝ} (h : Sames m es es') : ∀ v ∈ es'.cviewss, v ∈ es.cviewss := by
  intro v hv
  obtain ⟨x', hx', hv⟩ := mem_cviewss.1 hv
  obtain ⟨x, hx, h⟩ := h.mem x' hx'
  exact mem_cviewss.2 ⟨x, hx, h.cviews v hv⟩

theorem Sames.iterShape {m : ℕ → ℝ} {k : Kind} {es es' : Exprs ℝ} (h : Sames m es es') : Expr.iterShape k es' = Expr.iterShape k es := by
  cases es <;> cases es' <;> simp only [Sames] at h
  · rfl
  · simp only [Expr.iterShape, h.1.shape]

theorem Sames.sumIter {m : ℕ → ℝ} {k : Kind} {es es' : Exprs ℝ} (hwf : (Expr.mkSumIter k es).WF) (h : Sames m es es') :
    Same m (.mkSumIter k es) (.mkSumIter k es') := by
  obtain ⟨wfs, hok, hsh⟩ := hwf
  have hsh : ∀ e ∈ es.toList, e.shape = Expr.iterShape k es := hsh
  refine ⟨h.iterShape, ⟨h.wfs, by rw [h.iterShape]; exact hok, fun x' hx' => ?_⟩, by simp [Expr.mkSumIter, Expr.isIf], fun j hj => ?_,
    fun f a => ?_, h.vars, h.cviews⟩
  · obtain ⟨x, hx, h1⟩ := h.mem x' hx'
    show x'.shape = Expr.iterShape k es'
    rw [h1.shape, h.iterShape, hsh x hx]
  · simp only [Expr.mkSumIter, Expr.denote]
    rw [h.den j fun e he => by rw [Expr.size, hsh e he]; exact hj]
  · simp only [Expr.mkSumIter, Expr.grad]
    exact h.grads _ _ _

theorem Sames.prodIter {m : ℕ → ℝ} {k : Kind} {es es' : Exprs ℝ} (hwf : (Expr.mkProdIter k es).WF) (h : Sames m es es') :
    Same m (.mkProdIter k es) (.mkProdIter k es') := by
  obtain ⟨wfs, hok, hsh⟩ := hwf
  have hsh : ∀ e ∈ es.toList, e.shape = Expr.iterShape k es ∧ e.isIf = false := hsh
  refine ⟨h.iterShape, ⟨h.wfs, by rw [h.iterShape]; exact hok, fun x' hx' => ?_⟩, by simp [Expr.mkProdIter, Expr.isIf], fun j hj => ?_,
    fun f a => ?_, h.vars, h.cviews⟩
  · obtain ⟨x, hx, h1⟩ := h.mem x' hx'
    refine ⟨?_, ?_⟩
    · show x'.shape = Expr.iterShape k es'
      rw [h1.shape, h.iterShape, (hsh x hx).1]
    · have := (hsh x hx).2
      by_contra hc
      simp [h1.isIf (by simpa using hc)] at this
  · simp only [Expr.mkProdIter, Expr.denote]
    rw [h.den j fun e he => by rw [Expr.size, (hsh e he).1]; exact hj]
  · simp only [Expr.mkProdIter, Expr.grad]
    rw [h.grads]
    refine grads_congr m es _ _ 0 wfs (Expr.iterShape k es).size (fun e he => by rw [Expr.size, (hsh e he).1]) (fun i => ?_) a
    intro j hj
    dsimp only
    rw [prodOthers_congr (h.den j fun e he => by rw [Expr.size, (hsh e he).1]; exact hj)]

/-! ### Folded nodes -/

/-- the constants of `e` are alive in `s` and have the values `m` -/
def ConstsAt (s : St ℝ) (m : ℕ → ℝ) (e : Expr ℝ) : Prop :=
  ∀ c ∈ e.cviews, accessible s.vok c.2 c.1.size ∧ ∀ k < c.1.size, s.val (addr c.2 + k) = m (addr c.2 + k)

theorem ConstsAt.read {s : St ℝ} {m : ℕ → ℝ} {e e' : Expr ℝ} (hs : ConstsAt s m e) (h : Same m e e') (hc : e'.isConstant = true) :
    constVal s e' = some (trunc e.size (e.denote m)) :=
  constVal_ok h hc (fun c hc => (hs c hc).1) fun c hc => (hs c hc).2

/-- what is known about the node built for a source expression whose unfolded tree is `e` -/
structure Built (s : St ℝ) (m : ℕ → ℝ) (cst : Bool) (ret : Expr.RetKind) (e : Expr ℝ) (o : Option (Expr ℝ)) : Prop where
  ex : ∃ e', o = some e' ∧ Same m e e' ∧ e'.isConstant = cst ∧ (e.shape.isScl = true ∨ e'.retKind = ret)

theorem build_unary {s : St ℝ} {m : ℕ → ℝ} {op : UOp} {e e' : Expr ℝ} (hwf : (Expr.mkUnary op e).WF) (hs : ConstsAt s m e)
    (h : Same m e e') :
    Built s m e'.isConstant (if e'.isConstant then .matrix else .map) (.mkUnary op e) (buildUnary s op e') := by
  refine ⟨?_⟩
  unfold buildUnary
  by_cases hc : e'.isConstant = true
  · rw [if_pos hc, hs.read h hc]
    refine ⟨_, Eq.refl _, Same.const hwf h.shape (fun k hk => ?_) (fun f a => ?_), hc.symm, .inr (by rw [if_pos hc]; rfl)⟩
    · have hk : k < e.size := hk
      simp only [Expr.mkUnary, Expr.denote]
      rw [trunc_of_lt hk, UOp.fmap_eq]
    · simp only [Expr.mkUnary, Expr.grad]
      exact h.grad_zero hc _ _
  · rw [if_neg hc]
    refine ⟨_, Eq.refl _, Same.unary hwf h, (Bool.eq_false_iff.2 hc).symm, .inr (by rw [if_neg hc]; rfl)⟩

theorem build_pow {s : St ℝ} {m : ℕ → ℝ} {n : ℤ} {e e' : Expr ℝ} (hwf : (Expr.mkPow n e).WF) (hs : ConstsAt s m e)
    (h : Same m e e') :
    Built s m e'.isConstant (if e'.isConstant then .matrix else .map) (.mkPow n e) (buildPow s n e') := by
  refine ⟨?_⟩
  unfold buildPow
  by_cases hc : e'.isConstant = true
  · rw [if_pos hc, hs.read h hc]
    refine ⟨_, Eq.refl _, Same.const hwf h.shape (fun k hk => ?_) (fun f a => ?_), hc.symm, .inr (by rw [if_pos hc]; rfl)⟩
    · have hk : k < e.size := hk
      simp only [Expr.mkPow, Expr.denote]
      rw [trunc_of_lt hk, powFunc_eq, arrayPow_eq, ite_self]
    · simp only [Expr.mkPow, Expr.grad]
      split
      · exact h.grad_zero hc _ _
      · split <;> exact h.grad_zero hc _ _
  · rw [if_neg hc]
    refine ⟨_, Eq.refl _, Same.pow hwf h, (Bool.eq_false_iff.2 hc).symm, .inr (by rw [if_neg hc]; rfl)⟩

theorem Shape.eq_scl {s : Shape} (h : s.Ok) (hs : s.isScl = true) : s = .scl := by
  rcases s with ⟨k, r, c⟩
  simp only [Shape.isScl, beq_iff_eq] at hs
  subst hs
  simp only [Shape.Ok] at h
  simp [Shape.scl, h.1, h.2]

theorem reduce_grad_zero {m : ℕ → ℝ} {op : RedOp} {e e' : Expr ℝ} (h : Same m e e') (hc : e'.isConstant = true) (f : ℕ → ℝ) (a : ℕ) :
    (Expr.mkReduce op (.cons e .nil)).grad m f a = 0 := by
  simp only [Expr.mkReduce, Expr.grad, Exprs.grads, add_zero]
  split
  · exact h.grad_zero hc _ _
  · rfl

/-- folding of a reduction to a scalar constant -/
theorem fold_reduce {s : St ℝ} {m : ℕ → ℝ} {op : RedOp} {e e' : Expr ℝ} {ret : Expr.RetKind} {x : ℝ}
    (hwf : (Expr.mkReduce op (.cons e .nil)).WF) (h : Same m e e') (hc : e'.isConstant = true)
    (hx : x = op.real e.shape (e.denote m)) :
    Built s m true ret (.mkReduce op (.cons e .nil)) (some (.const .scl fun _ => x)) := by
  refine ⟨_, Eq.refl _, Same.const hwf (Eq.refl _) (fun k hk => ?_) (reduce_grad_zero h hc), Eq.refl _, .inl (Eq.refl _)⟩
  simpa only [Expr.mkReduce, Expr.denote, Exprs.denotes, RedOp.reals] using hx

theorem build_sum {s : St ℝ} {m : ℕ → ℝ} {e e' : Expr ℝ} {ret : Expr.RetKind} (hwf : (Expr.mkReduce .sum (.cons e .nil)).WF)
    (hs : ConstsAt s m e) (h : Same m e e') :
    Built s m e'.isConstant ret (.mkReduce .sum (.cons e .nil)) (buildSum s e') := by
  have wfe : e.WF := hwf.1.1
  unfold buildSum
  by_cases hc : e'.isConstant = true
  · rw [if_pos hc, hc]
    by_cases hsc : e'.shape.isScl = true
    · rw [if_pos hsc]
      rw [h.shape] at hsc
      have hscl := Shape.eq_scl wfe.shapeOk hsc
      refine ⟨e', Eq.refl _, ⟨h.shape.trans hscl, h.wf, ?_, fun k hk => ?_, fun f a => ?_, ?_, ?_⟩, hc, .inl (Eq.refl _)⟩
      · cases e' <;> simp_all [Expr.isConstant, Expr.isIf]
      · have hk : k < 1 := hk
        obtain rfl : k = 0 := by omega
        have h1 : e.shape.size = 1 := by rw [hscl]; rfl
        simp only [Expr.mkReduce, Expr.denote, Exprs.denotes, RedOp.reals, RedOp.real, h1, Finset.sum_range_one]
        exact h.den 0 (by rw [Expr.size, h1]; omega)
      · rw [grad_isConstant hc, reduce_grad_zero h hc]
      · intro v hv
        simpa only [Expr.mkReduce, Expr.vars, Exprs.varss, List.append_nil] using h.vars v hv
      · intro v hv
        simpa only [Expr.mkReduce, Expr.cviews, Exprs.cviewss, List.append_nil] using h.cviews v hv
    · rw [if_neg hsc, hs.read h hc]
      refine fold_reduce hwf h hc ?_
      rw [h.size, sumN_eq]
      exact Finset.sum_congr (Eq.refl _) fun k hk => trunc_of_lt (Finset.mem_range.1 hk)
  · rw [if_neg hc]
    exact ⟨_, Eq.refl _, Same.reduce hwf h, (Bool.eq_false_iff.2 hc).symm, .inl (Eq.refl _)⟩

theorem build_norm {s : St ℝ} {m : ℕ → ℝ} {e e' : Expr ℝ} {ret : Expr.RetKind} (hwf : (Expr.mkReduce .norm (.cons e .nil)).WF)
    (hs : ConstsAt s m e) (h : Same m e e') :
    Built s m e'.isConstant ret (.mkReduce .norm (.cons e .nil)) (buildNorm s e') := by
  unfold buildNorm
  by_cases hc : e'.isConstant = true
  · rw [if_pos hc, hc, hs.read h hc]
    refine fold_reduce hwf h hc ?_
    rw [h.size, sumN_eq]
    exact Finset.sum_congr (Eq.refl _) fun k hk => by
      rw [trunc_of_lt (show k < e.size from Finset.mem_range.1 hk), sq]
  · rw [if_neg hc]
    exact ⟨_, Eq.refl _, Same.reduce hwf h, (Bool.eq_false_iff.2 hc).symm, .inl (Eq.refl _)⟩

/-- determinants of constants, whatever the policy -/
theorem fits_det [LawfulLinAlg] {d : Decomp} {sh : Shape} {x : ℕ → ℝ} (hsq : sh.rows = sh.cols) (hf : d.Fits sh.rows x) :
    LinAlg.det sh.rows (trunc sh.size x) = (RedOp.det d).real sh x ∧
    Real.log |LinAlg.det sh.rows (trunc sh.size x)| = (RedOp.logDet d).real sh x := by
  have hsz : sh.size = sh.rows * sh.rows := by rw [Shape.size, ← hsq]
  cases d with
  | lu => exact ⟨Eq.refl _, Eq.refl _⟩
  | ldlt =>
    obtain ⟨h1, h2⟩ := hf
    have h3 : symMat sh.rows (trunc (sh.rows * sh.rows) x) = toMat sh.rows (trunc (sh.rows * sh.rows) x) :=
      symMat_eq _ _ (by rw [toMat_trunc]; exact h1)
    have : LinAlg.det sh.rows (trunc sh.size x) = LinAlg.symDet sh.rows (trunc sh.size x) := by
      rw [hsz, LawfulLinAlg.det_eq, LawfulLinAlg.symDet_eq _ _ h2, h3]
    simp only [RedOp.real, this, and_self]
  | llt =>
    obtain ⟨h1, h2⟩ := hf
    have h3 : symMat sh.rows (trunc (sh.rows * sh.rows) x) = toMat sh.rows (trunc (sh.rows * sh.rows) x) :=
      symMat_eq _ _ (by rw [toMat_trunc]; exact h1)
    have hp := LawfulLinAlg.lltDetL_pos _ _ h2
    have : LinAlg.det sh.rows (trunc sh.size x) = LinAlg.lltDetL sh.rows (trunc sh.size x) ^ 2 := by
      rw [hsz, LawfulLinAlg.det_eq, sq, LawfulLinAlg.lltDetL_sq _ _ h2, h3]
    refine ⟨by simp only [RedOp.real, this], ?_⟩
    simp only [RedOp.real, this]
    rw [abs_pow, Real.log_pow]
    norm_num

theorem build_det [LawfulLinAlg] {s : St ℝ} {m : ℕ → ℝ} {d : Decomp} {e e' : Expr ℝ} {ret : Expr.RetKind}
    (hwf : (Expr.mkReduce (.det d) (.cons e .nil)).WF) (hs : ConstsAt s m e) (h : Same m e e')
    (hf : e'.isConstant = true → d.Fits e.shape.rows (e.denote m)) :
    Built s m e'.isConstant ret (.mkReduce (.det d) (.cons e .nil)) (buildDet s d e') := by
  obtain ⟨hso, -⟩ := reduce_single hwf
  unfold buildDet
  by_cases hc : e'.isConstant = true
  · rw [if_pos hc, hc, hs.read h hc]
    refine fold_reduce hwf h hc ?_
    rw [h.shape]
    exact (fits_det hso.2 (hf hc)).1
  · rw [if_neg hc]
    exact ⟨_, Eq.refl _, Same.reduce hwf h, (Bool.eq_false_iff.2 hc).symm, .inl (Eq.refl _)⟩

theorem build_logDet [LawfulLinAlg] {s : St ℝ} {m : ℕ → ℝ} {d : Decomp} {e e' : Expr ℝ} {ret : Expr.RetKind}
    (hwf : (Expr.mkReduce (.logDet d) (.cons e .nil)).WF) (hs : ConstsAt s m e) (h : Same m e e')
    (hf : e'.isConstant = true → d.Fits e.shape.rows (e.denote m)) :
    Built s m e'.isConstant ret (.mkReduce (.logDet d) (.cons e .nil)) (buildLogDet s d e') := by
  obtain ⟨hso, -⟩ := reduce_single hwf
  unfold buildLogDet
  by_cases hc : e'.isConstant = true
  · rw [if_pos hc, hc, hs.read h hc]
    refine fold_reduce hwf h hc ?_
    rw [h.shape]
    exact (fits_det hso.2 (hf hc)).2
  · rw [if_neg hc]
    exact ⟨_, Eq.refl _, Same.reduce hwf h, (Bool.eq_false_iff.2 hc).symm, .inl (Eq.refl _)⟩

theorem build_prod {s : St ℝ} {m : ℕ → ℝ} {e e' : Expr ℝ} {ret : Expr.RetKind} (hwf : (Expr.mkProdElem e).WF)
    (hs : ConstsAt s m e) (h : Same m e e') :
    Built s m e'.isConstant ret (.mkProdElem e) (buildProd s e') := by
  have wfe : e.WF := hwf.1
  have hg : e'.isConstant = true → ∀ f a, (Expr.mkProdElem e).grad m f a = 0 := by
    intro hc f a
    simp only [Expr.mkProdElem, Expr.grad]
    exact h.grad_zero hc _ _
  unfold buildProd
  by_cases hc : e'.isConstant = true
  · rw [if_pos hc, hc]
    by_cases hsc : e'.shape.isScl = true
    · rw [if_pos hsc]
      rw [h.shape] at hsc
      have hscl := Shape.eq_scl wfe.shapeOk hsc
      refine ⟨e', Eq.refl _, ⟨h.shape.trans hscl, h.wf, ?_, fun k hk => ?_, fun f a => ?_, h.vars, h.cviews⟩, hc, .inl (Eq.refl _)⟩
      · cases e' <;> simp_all [Expr.isConstant, Expr.isIf]
      · have hk : k < 1 := hk
        obtain rfl : k = 0 := by omega
        have h1 : e.size = 1 := by rw [Expr.size, hscl]; rfl
        simp only [Expr.mkProdElem, Expr.denote, h1, Finset.prod_range_one]
        exact h.den 0 (by omega)
      · rw [grad_isConstant hc, hg hc]
    · rw [if_neg hsc, hs.read h hc]
      refine ⟨_, Eq.refl _, Same.const hwf (Eq.refl _) (fun k _ => ?_) (hg hc), Eq.refl _, .inl (Eq.refl _)⟩
      simp only [Expr.mkProdElem, Expr.denote]
      rw [h.size, prodN_eq]
      exact Finset.prod_congr (Eq.refl _) fun k hk => trunc_of_lt (Finset.mem_range.1 hk)
  · rw [if_neg hc]
    exact ⟨_, Eq.refl _, Same.prodElem hwf h, (Bool.eq_false_iff.2 hc).symm, .inl (Eq.refl _)⟩

theorem build_transpose {s : St ℝ} {m : ℕ → ℝ} {e e' : Expr ℝ} (hwf : (Expr.mkTranspose e).WF) (h : Same m e e')
    (hc : e'.isConstant = false) : Built s m false .map (.mkTranspose e) (buildTranspose s e') := by
  unfold buildTranspose
  rw [if_neg (by simp [hc])]
  exact ⟨_, Eq.refl _, Same.transpose hwf h, Eq.refl _, .inr (Eq.refl _)⟩

theorem build_dot {s : St ℝ} {m : ℕ → ℝ} {l r l' r' : Expr ℝ} (hwf : (Expr.mkDot l r).WF) (hsl : ConstsAt s m l)
    (hsr : ConstsAt s m r) (hl : Same m l l') (hr : Same m r r') :
    Built s m (l'.isConstant && r'.isConstant) (if l'.isConstant && r'.isConstant then .matrix else .map) (.mkDot l r) (buildDot s l' r') := by
  unfold buildDot
  by_cases hc : (l'.isConstant && r'.isConstant) = true
  · rw [if_pos hc, hc]
    rw [Bool.and_eq_true] at hc
    obtain ⟨wfl, wfr, hkl, hkr, hcr, -⟩ := id hwf
    have hcols : r.shape.kind = .vec → r.shape.cols = 1 := by
      intro hk; have := wfr.shapeOk; rw [Shape.Ok, hk] at this; exact this
    rw [hsl.read hl hc.1, hsr.read hr hc.2, hl.shape, hr.shape]
    simp only [Option.bind_eq_bind, Option.bind_some]
    rw [if_pos hcr]
    refine ⟨_, Eq.refl _, Same.const hwf (Eq.refl _) (fun k hk => ?_) (fun f a => ?_), Eq.refl _, .inr (Eq.refl _)⟩
    · have hk : k < (Shape.ofDims r.shape.kind l.shape.rows r.shape.cols).size := hk
      have hk : k < l.shape.rows * r.shape.cols := by
        cases hkk : r.shape.kind
        · exact absurd hkk hkr
        · simpa [Shape.ofDims, Shape.size, hkk, hcols hkk] using hk
        · simpa [Shape.ofDims, Shape.size, hkk] using hk
      have hk := idx_lt hk
      simp only [Expr.mkDot, Expr.denote, matMul, sumN_eq]
      refine Finset.sum_congr (Eq.refl _) fun q hq => ?_
      have hq := Finset.mem_range.1 hq
      rw [trunc_of_lt (show _ < l.size from idx_lt' hk.1 hq), trunc_of_lt]
      show _ < r.shape.rows * r.shape.cols
      rw [← hcr]
      exact idx_lt' hq hk.2
    · simp only [Expr.mkDot, Expr.grad]
      rw [hl.grad_zero hc.1, hr.grad_zero hc.2, add_zero]
  · rw [if_neg hc]
    have hc' : (l'.isConstant && r'.isConstant) = false := by simpa using hc
    rw [hc']
    exact ⟨_, Eq.refl _, Same.dot hwf hl hr, Eq.refl _, .inr (Eq.refl _)⟩

theorem binShape_eq {l r : Shape} (hl : l.Ok) (hr : r.Ok) (hb : Expr.binOk l r = true)
    (hd : binDimsOk l r (Expr.binShape l r)) :
    (l.isScl = true → Expr.binShape l r = r) ∧ (r.isScl = true → Expr.binShape l r = l) ∧
    (l.isScl = false → r.isScl = false → l = r ∧ Expr.binShape l r = l) := by
  rcases l with ⟨kl, rl, cl⟩
  rcases r with ⟨kr, rr, cr⟩
  cases kl <;> cases kr <;>
    simp_all [Shape.Ok, Expr.binOk, binDimsOk, Expr.binShape, Shape.isScl, Shape.maxKind, Shape.ofDims, sameDims]

theorem build_binary {s : St ℝ} {m : ℕ → ℝ} {op : BOp} {l r l' r' : Expr ℝ} (hwf : (Expr.mkBinary op l r).WF)
    (hb : Expr.binOk l.shape r.shape = true) (hsl : ConstsAt s m l)
    (hsr : ConstsAt s m r) (hl : Same m l l') (hr : Same m r r') :
    Built s m (l'.isConstant && r'.isConstant) (if l'.isConstant && r'.isConstant then .matrix else .map)
      (.mkBinary op l r) (buildBinary s op l' r') := by
  unfold buildBinary
  by_cases hc : (l'.isConstant && r'.isConstant) = true
  · rw [if_pos hc, hc]
    rw [Bool.and_eq_true] at hc
    obtain ⟨wfl, wfr, hok, hd, -⟩ := id hwf
    obtain ⟨h1, h2, h3⟩ := binShape_eq wfl.shapeOk wfr.shapeOk hb hd
    have hg : ∀ f a, (Expr.mkBinary op l r).grad m f a = 0 := by
      intro f a
      simp only [Expr.mkBinary, Expr.grad]
      split
      · rfl
      · rw [hl.grad_zero hc.1, hr.grad_zero hc.2, add_zero]
    have key : ∀ (sh : Shape) (b : Bool) (c : ℕ → ℝ), sh = Expr.binShape l.shape r.shape → b = (Expr.binShape l.shape r.shape).isScl →
        (∀ k < sh.size, c k = op.fmap b (trunc l.size (l.denote m) (if l.shape.isScl = true then 0 else k))
          (trunc r.size (r.denote m) (if r.shape.isScl = true then 0 else k))) →
        Built s m true .matrix (.mkBinary op l r) (some (.const sh c)) := by
      intro sh b c hsh hb hck
      refine ⟨_, Eq.refl _, Same.const hwf hsh (fun k hk => ?_) hg, Eq.refl _, .inr (Eq.refl _)⟩
      have hk : k < (Expr.binShape l.shape r.shape).size := hk
      rw [hck k (by rw [hsh]; exact hk), trunc_of_lt (bidx_lt wfl.shapeOk hd.1 hk), trunc_of_lt (bidx_lt wfr.shapeOk hd.2.1 hk), BOp.fmap_eq, hb]
      rfl
    rw [hsl.read hl hc.1, hsr.read hr hc.2, hl.shape, hr.shape]
    simp only [Option.bind_eq_bind, Option.bind_some, if_true]
    by_cases hsl' : l.shape.isScl = true
    · rw [if_pos hsl']
      refine key _ r.shape.isScl _ (h1 hsl').symm (by rw [h1 hsl']) fun k hk => ?_
      rw [if_pos hsl']
      split
      · rename_i hh
        rw [wfr.shapeOk.size_scl hh] at hk
        obtain rfl : k = 0 := by omega
        rfl
      · rfl
    · rw [if_neg hsl']
      by_cases hsr' : r.shape.isScl = true
      · rw [if_pos hsr']
        refine key _ false _ (h2 hsr').symm (by rw [h2 hsr']; exact (Bool.eq_false_iff.2 hsl').symm) fun k hk => ?_
        rw [if_neg hsl', if_pos hsr']
      · rw [if_neg hsr']
        obtain ⟨h4, h5⟩ := h3 (by simpa using hsl') (by simpa using hsr')
        rw [if_pos h4]
        refine key _ false _ h5.symm (by rw [h5]; exact (Bool.eq_false_iff.2 hsl').symm) fun k hk => ?_
        rw [if_neg hsl', if_neg hsr']
  · rw [if_neg hc]
    have hc' : (l'.isConstant && r'.isConstant) = false := by simpa using hc
    rw [hc']
    exact ⟨_, Eq.refl _, Same.binary hwf hl hr, Eq.refl _, .inr (Eq.refl _)⟩

theorem build_ifElse {s : St ℝ} {m : ℕ → ℝ} {c x y c' x' y' : Expr ℝ} (hwf : (Expr.mkIfElse c x y).WF) (hsc : ConstsAt s m c)
    (hsx : ConstsAt s m x) (hsy : ConstsAt s m y) (hc : Same m c c') (hx : Same m x x') (hy : Same m y y')
    (hret : (c'.isConstant && x'.isConstant && y'.isConstant) = true ∨ x.shape.isScl = true ∨ x'.retKind = y'.retKind) :
    Built s m (c'.isConstant && x'.isConstant && y'.isConstant)
      (if c'.isConstant && x'.isConstant && y'.isConstant then .matrix else x'.retKind) (.mkIfElse c x y) (buildIfElse s c' x' y') := by
  unfold buildIfElse
  by_cases hk : (c'.isConstant && x'.isConstant && y'.isConstant) = true
  · rw [if_pos hk, hk]
    simp only [Bool.and_eq_true] at hk
    obtain ⟨wfc, wfx, wfy, hkc, hic, hsx', hsy', -⟩ := id hwf
    have hsy' : y.shape = x.shape := hsy'
    have hc1 : c.size = 1 := by rw [Expr.size, wfc.shapeOk.size_scl (by simp [Shape.isScl, hkc])]
    rw [hsc.read hc hk.1.1, hsx.read hx hk.1.2, hsy.read hy hk.2, hx.shape, hy.shape, hsy']
    simp only [Option.bind_eq_bind, Option.bind_some]
    rw [if_pos (show sameDims x.shape x.shape from ⟨Eq.refl _, Eq.refl _⟩)]
    refine ⟨_, Eq.refl _, Same.const hwf (Eq.refl _) (fun k hlt => ?_) (fun f a => ?_), Eq.refl _, .inr (Eq.refl _)⟩
    · have hlt : k < x.size := hlt
      have hlt' : k < y.size := by rw [Expr.size, hsy']; exact hlt
      simp only [Expr.mkIfElse, Expr.denote]
      rw [trunc_of_lt (show 0 < c.size by omega)]
      by_cases h0 : c.denote m 0 ≠ 0
      · rw [if_pos ((toBool_iff _).2 h0), if_pos h0, trunc_of_lt hlt]
      · rw [if_neg (fun h => h0 ((toBool_iff _).1 h)), if_neg h0, trunc_of_lt hlt']
    · simp only [Expr.mkIfElse, Expr.grad]
      split
      · exact hx.grad_zero hk.1.2 _ _
      · exact hy.grad_zero hk.2 _ _
  · rw [if_neg hk]
    have hk' : (c'.isConstant && x'.isConstant && y'.isConstant) = false := by simpa using hk
    rw [hk'] at hret ⊢
    exact ⟨_, Eq.refl _, Same.ifElse hwf hc hx hy (by simpa using hret), Eq.refl _, .inr (Eq.refl _)⟩

theorem foldConst_ok {s : St ℝ} {m : ℕ → ℝ} (f : ℝ → ℝ → ℝ) (sh : Shape) {es es' : Exprs ℝ} (h : Sames m es es') :
    (∀ x ∈ es.toList, ConstsAt s m x ∧ x.shape = sh) → (∀ x' ∈ es'.toList, x'.isConstant = true) → ∀ acc : ℕ → ℝ,
    ∃ y, foldConst s f sh acc es' = some y ∧ ∀ k < sh.size, y k = ((es.denotes m).map (fun x => x.2 k)).foldl f (acc k) := by
  refine Sames.rec' (P := fun es es' => (∀ x ∈ es.toList, ConstsAt s m x ∧ x.shape = sh) → (∀ x' ∈ es'.toList, x'.isConstant = true) →
    ∀ acc : ℕ → ℝ, ∃ y, foldConst s f sh acc es' = some y ∧ ∀ k < sh.size, y k = ((es.denotes m).map (fun x => x.2 k)).foldl f (acc k))
    (fun _ _ acc => ⟨acc, Eq.refl _, fun _ _ => Eq.refl _⟩) ?_ es es' h
  intro e e' es es' h _ ih hs hc acc
  obtain ⟨h1, h2⟩ := hs e (by simp [Exprs.toList])
  have hc' := hc e' (by simp [Exprs.toList])
  obtain ⟨y, hy, hv⟩ := ih (fun x hx => hs x (by simp [Exprs.toList, hx])) (fun x hx => hc x (by simp [Exprs.toList, hx]))
    (fun k => f (acc k) (trunc e.size (e.denote m) k))
  refine ⟨y, ?_, fun k hk => ?_⟩
  · rw [foldConst, if_pos (by rw [h.shape, h2]; exact ⟨Eq.refl _, Eq.refl _⟩), h1.read h hc']
    exact hy
  · rw [hv k hk, trunc_of_lt (by rw [Expr.size, h2]; exact hk)]
    rfl

theorem Sames.grads_zero {m : ℕ → ℝ} {es es' : Exprs ℝ} (h : Sames m es es') : (∀ x' ∈ es'.toList, x'.isConstant = true) →
    ∀ sd i a, es.grads m sd i a = 0 := by
  refine Sames.rec' (P := fun es es' => (∀ x' ∈ es'.toList, x'.isConstant = true) → ∀ sd i a, es.grads m sd i a = 0)
    (fun _ _ _ _ => Eq.refl _) ?_ es es' h
  intro e e' es es' h _ ih hc sd i a
  simp only [Exprs.grads]
  rw [ih fun x hx => hc x (by simp [Exprs.toList, hx]), add_zero]
  split
  · exact h.grad_zero (hc e' (by simp [Exprs.toList])) _ _
  · rfl

theorem foldl_add (l : List ℝ) : ∀ x : ℝ, l.foldl (· + ·) x = x + l.sum := by
  induction l with
  | nil => intro x; simp
  | cons y l ih => intro x; simp only [List.foldl, List.sum_cons]; rw [ih, add_assoc]

theorem foldl_mul (l : List ℝ) : ∀ x : ℝ, l.foldl (· * ·) x = x * l.prod := by
  induction l with
  | nil => intro x; simp
  | cons y l ih => intro x; simp only [List.foldl, List.prod_cons]; rw [ih, mul_assoc]

/-- the folded value of a non-empty range -/
theorem foldRange_ok {s : St ℝ} {m : ℕ → ℝ} (f : ℝ → ℝ → ℝ) {k : Kind} {e e' : Expr ℝ} {es es' : Exprs ℝ} (hk : k ≠ .mat)
    (h : Sames m (.cons e es) (.cons e' es')) (hs : ∀ x ∈ (Exprs.cons e es).toList, ConstsAt s m x ∧ x.shape = e.shape)
    (hc : ∀ x' ∈ (Exprs.cons e' es').toList, x'.isConstant = true) :
    ∃ y, foldRange s f k (.cons e' es') = some (.const e.shape y) ∧
      ∀ j < e.size, y j = ((es.denotes m).map (fun x => x.2 j)).foldl f (e.denote m j) := by
  obtain ⟨y, hy, hv⟩ := foldConst_ok (s := s) f e.shape h.2 (fun x hx => hs x (by simp [Exprs.toList, hx]))
    (fun x hx => hc x (by simp [Exprs.toList, hx])) (trunc e.size (e.denote m))
  refine ⟨y, ?_, fun j hj => ?_⟩
  · rw [foldRange, if_neg hk, (hs e (by simp [Exprs.toList])).1.read h.1 (hc e' (by simp [Exprs.toList]))]
    simp only [Option.bind_eq_bind, Option.bind_some]
    rw [h.1.shape, hy]
    rfl
  · rw [hv j hj, trunc_of_lt hj]

theorem build_sumRange {s : St ℝ} {m : ℕ → ℝ} {k : Kind} {cst : Bool} {es es' : Exprs ℝ} (hwf : (Expr.mkSumIter k es).WF)
    (hs : ∀ x ∈ es.toList, ConstsAt s m x) (h : Sames m es es') (hc : ∀ x' ∈ es'.toList, x'.isConstant = cst)
    (hk : cst = true → k ≠ .mat) :
    Built s m cst (if cst then .matrix else .map) (.mkSumIter k es) (buildSumRange s k cst es') := by
  unfold buildSumRange
  cases cst with
  | false =>
    simp only [Bool.false_eq_true, if_false]
    exact ⟨_, Eq.refl _, h.sumIter hwf, Eq.refl _, .inr (Eq.refl _)⟩
  | true =>
    simp only [if_true]
    have hg : ∀ f a, (Expr.mkSumIter k es).grad m f a = 0 := by
      intro f a
      simp only [Expr.mkSumIter, Expr.grad]
      exact h.grads_zero hc _ _ _
    cases es with
    | nil =>
      cases es' with
      | cons => exact absurd h (by simp [Sames])
      | nil =>
        rw [foldRange, if_neg (hk rfl)]
        exact ⟨_, Eq.refl _, Same.const hwf (Eq.refl _) (fun j _ => by simp [Expr.mkSumIter, Expr.denote, Exprs.denotes]) hg, Eq.refl _,
          .inr (Eq.refl _)⟩
    | cons e es =>
      cases es' with
      | nil => exact absurd h (by simp [Sames])
      | cons e' es' =>
        have hsh : ∀ x ∈ (Exprs.cons e es).toList, x.shape = Expr.iterShape k (.cons e es) := hwf.2.2
        have he := hsh e (by simp [Exprs.toList])
        obtain ⟨y, hy, hv⟩ := foldRange_ok (s := s) (· + ·) (hk rfl) h (fun x hx => ⟨hs x hx, by rw [hsh x hx, he]⟩) hc
        rw [hy]
        refine ⟨_, Eq.refl _, Same.const hwf he (fun j hj => ?_) hg, Eq.refl _, .inr (Eq.refl _)⟩
        have hj : j < (Expr.iterShape k (.cons e es)).size := hj
        rw [hv j (by rw [Expr.size, he]; exact hj), foldl_add]
        simp only [Expr.mkSumIter, Expr.denote, Exprs.denotes, List.map, List.sum_cons]

theorem build_prodRange {s : St ℝ} {m : ℕ → ℝ} {k : Kind} {cst : Bool} {es es' : Exprs ℝ} (hwf : (Expr.mkProdIter k es).WF)
    (hs : ∀ x ∈ es.toList, ConstsAt s m x) (h : Sames m es es') (hc : ∀ x' ∈ es'.toList, x'.isConstant = cst)
    (hk : cst = true → k ≠ .mat) (hne : cst = true → k = .scl → es ≠ .nil) :
    Built s m cst (if cst then .matrix else .map) (.mkProdIter k es) (buildProdRange s k cst es') := by
  unfold buildProdRange
  cases cst with
  | false =>
    simp only [Bool.false_eq_true, if_false]
    exact ⟨_, Eq.refl _, h.prodIter hwf, Eq.refl _, .inr (Eq.refl _)⟩
  | true =>
    simp only [if_true]
    have hg : ∀ f a, (Expr.mkProdIter k es).grad m f a = 0 := by
      intro f a
      simp only [Expr.mkProdIter, Expr.grad]
      exact h.grads_zero hc _ _ _
    cases es with
    | nil =>
      cases es' with
      | cons => exact absurd h (by simp [Sames])
      | nil =>
        rw [foldRange, if_neg (hk rfl)]
        refine ⟨_, Eq.refl _, Same.const hwf (Eq.refl _) (fun j hj => ?_) hg, Eq.refl _, .inr (Eq.refl _)⟩
        have hj : j < (Shape.ofDims k 0 0).size := hj
        cases k with
        | scl => exact absurd rfl (hne rfl rfl)
        | vec => simp [Shape.ofDims, Shape.size] at hj
        | mat => simp [Shape.ofDims, Shape.size] at hj
    | cons e es =>
      cases es' with
      | nil => exact absurd h (by simp [Sames])
      | cons e' es' =>
        have hsh : ∀ x ∈ (Exprs.cons e es).toList, x.shape = Expr.iterShape k (.cons e es) ∧ x.isIf = false := hwf.2.2
        have he := (hsh e (by simp [Exprs.toList])).1
        obtain ⟨y, hy, hv⟩ := foldRange_ok (s := s) (· * ·) (hk rfl) h (fun x hx => ⟨hs x hx, by rw [(hsh x hx).1, he]⟩) hc
        rw [hy]
        refine ⟨_, Eq.refl _, Same.const hwf he (fun j hj => ?_) hg, Eq.refl _, .inr (Eq.refl _)⟩
        have hj : j < (Expr.iterShape k (.cons e es)).size := hj
        rw [hv j (by rw [Expr.size, he]; exact hj), foldl_mul]
        simp only [Expr.mkProdIter, Expr.denote, Exprs.denotes, List.map, List.prod_cons]

/-! ### All source expressions -/

theorem build_ok [LawfulLinAlg] {s : St ℝ} {m : ℕ → ℝ} (e : Src ℝ) :
    e.plain.WF → e.Ok m → ConstsAt s m e.plain → Built s m e.isConst e.ret e.plain (e.build s) := by
  induction e using Src.rec (motive_2 := fun es => ∀ k cst, es.plains.WFs → es.Oks m k cst →
    (∀ x ∈ es.plains.toList, ConstsAt s m x) →
    ∃ es', es.builds s = some es' ∧ Sames m es.plains es' ∧ ∀ x' ∈ es'.toList, x'.isConstant = cst) with
  | var v => intro hwf _ _; exact ⟨_, Eq.refl _, Same.rfl hwf, Eq.refl _, .inr (Eq.refl _)⟩
  | const sh c => intro hwf _ _; exact ⟨_, Eq.refl _, Same.rfl hwf, Eq.refl _, .inr (Eq.refl _)⟩
  | cview sh p => intro hwf _ _; exact ⟨_, Eq.refl _, Same.rfl hwf, Eq.refl _, .inr (Eq.refl _)⟩
  | unary op e ih =>
    intro hwf hok hs
    simp only [Src.plain, Src.Ok] at hwf hok hs
    obtain ⟨e', he, h, hc, -⟩ := ih hwf.1 hok.1 hs
    have := build_unary hwf hs h
    rw [hc] at this
    simp only [Option.bind_eq_bind, Option.bind_some, Src.build, he, Src.isConst, Src.ret, Src.plain]
    exact this
  | pow n e ih =>
    intro hwf hok hs
    simp only [Src.plain, Src.Ok] at hwf hok hs
    obtain ⟨e', he, h, hc, -⟩ := ih hwf.1 hok.1 hs
    have := build_pow hwf hs h
    rw [hc] at this
    simp only [Option.bind_eq_bind, Option.bind_some, Src.build, he, Src.isConst, Src.ret, Src.plain]
    exact this
  | sum e ih =>
    intro hwf hok hs
    simp only [Src.plain, Src.Ok] at hwf hok hs
    have hs : ConstsAt s m e.plain := fun c hc => hs c (by simp [Expr.mkReduce, Expr.cviews, Exprs.cviewss, hc])
    obtain ⟨e', he, h, hc, -⟩ := ih hwf.1.1 hok.1 hs
    have := build_sum (ret := (Src.sum e).ret) hwf hs h
    rw [hc] at this
    simp only [Option.bind_eq_bind, Option.bind_some, Src.build, he, Src.isConst, Src.plain]
    exact this
  | norm e ih =>
    intro hwf hok hs
    simp only [Src.plain, Src.Ok] at hwf hok hs
    have hs : ConstsAt s m e.plain := fun c hc => hs c (by simp [Expr.mkReduce, Expr.cviews, Exprs.cviewss, hc])
    obtain ⟨e', he, h, hc, -⟩ := ih hwf.1.1 hok.1 hs
    have := build_norm (ret := (Src.norm e).ret) hwf hs h
    rw [hc] at this
    simp only [Option.bind_eq_bind, Option.bind_some, Src.build, he, Src.isConst, Src.plain]
    exact this
  | det d e ih =>
    intro hwf hok hs
    simp only [Src.plain, Src.Ok] at hwf hok hs
    have hs : ConstsAt s m e.plain := fun c hc => hs c (by simp [Expr.mkReduce, Expr.cviews, Exprs.cviewss, hc])
    obtain ⟨e', he, h, hc, -⟩ := ih hwf.1.1 hok.1 hs
    have := build_det (ret := (Src.det d e).ret) hwf hs h (by rw [hc]; exact hok.2.2)
    rw [hc] at this
    simp only [Option.bind_eq_bind, Option.bind_some, Src.build, he, Src.isConst, Src.plain]
    exact this
  | logDet d e ih =>
    intro hwf hok hs
    simp only [Src.plain, Src.Ok] at hwf hok hs
    have hs : ConstsAt s m e.plain := fun c hc => hs c (by simp [Expr.mkReduce, Expr.cviews, Exprs.cviewss, hc])
    obtain ⟨e', he, h, hc, -⟩ := ih hwf.1.1 hok.1 hs
    have := build_logDet (ret := (Src.logDet d e).ret) hwf hs h (by rw [hc]; exact hok.2.2)
    rw [hc] at this
    simp only [Option.bind_eq_bind, Option.bind_some, Src.build, he, Src.isConst, Src.plain]
    exact this
  | prod e ih =>
    intro hwf hok hs
    simp only [Src.plain, Src.Ok] at hwf hok hs
    obtain ⟨e', he, h, hc, -⟩ := ih hwf.1 hok.1 hs
    have := build_prod (ret := (Src.prod e).ret) hwf hs h
    rw [hc] at this
    simp only [Option.bind_eq_bind, Option.bind_some, Src.build, he, Src.isConst, Src.plain]
    exact this
  | transpose e ih =>
    intro hwf hok hs
    simp only [Src.plain, Src.Ok] at hwf hok hs
    obtain ⟨e', he, h, hc, -⟩ := ih hwf.1 hok.1 hs
    have := build_transpose (s := s) hwf h (by rw [hc]; exact hok.2)
    simp only [Option.bind_eq_bind, Option.bind_some, Src.build, he, Src.isConst, Src.plain, Src.ret, hok.2, Bool.false_eq_true, if_false]
    exact this
  | binary op l r ihl ihr =>
    intro hwf hok hs
    simp only [Src.plain, Src.Ok] at hwf hok hs
    have hsl : ConstsAt s m l.plain := fun c hc => hs c (by simp [Expr.mkBinary, Expr.cviews, hc])
    have hsr : ConstsAt s m r.plain := fun c hc => hs c (by simp [Expr.mkBinary, Expr.cviews, hc])
    obtain ⟨l', hl, h1, hc1, -⟩ := ihl hwf.1 hok.1 hsl
    obtain ⟨r', hr, h2, hc2, -⟩ := ihr hwf.2.1 hok.2.1 hsr
    have := build_binary hwf hok.2.2.1 hsl hsr h1 h2
    rw [hc1, hc2] at this
    simp only [Option.bind_eq_bind, Option.bind_some, Src.build, hl, hr, Src.isConst, Src.ret, Src.plain]
    exact this
  | dot l r ihl ihr =>
    intro hwf hok hs
    simp only [Src.plain, Src.Ok] at hwf hok hs
    have hsl : ConstsAt s m l.plain := fun c hc => hs c (by simp [Expr.mkDot, Expr.cviews, hc])
    have hsr : ConstsAt s m r.plain := fun c hc => hs c (by simp [Expr.mkDot, Expr.cviews, hc])
    obtain ⟨l', hl, h1, hc1, -⟩ := ihl hwf.1 hok.1 hsl
    obtain ⟨r', hr, h2, hc2, -⟩ := ihr hwf.2.1 hok.2.1 hsr
    have := build_dot hwf hsl hsr h1 h2
    rw [hc1, hc2] at this
    simp only [Option.bind_eq_bind, Option.bind_some, Src.build, hl, hr, Src.isConst, Src.ret, Src.plain]
    exact this
  | ifElse c a b ihc iha ihb =>
    intro hwf hok hs
    simp only [Src.plain, Src.Ok] at hwf hok hs
    have hsc : ConstsAt s m c.plain := fun x hx => hs x (by simp [Expr.mkIfElse, Expr.cviews, hx])
    have hsa : ConstsAt s m a.plain := fun x hx => hs x (by simp [Expr.mkIfElse, Expr.cviews, hx])
    have hsb : ConstsAt s m b.plain := fun x hx => hs x (by simp [Expr.mkIfElse, Expr.cviews, hx])
    obtain ⟨c', hc, h0, hc0, -⟩ := ihc hwf.1 hok.1 hsc
    obtain ⟨a', ha, h1, hc1, hr1⟩ := iha hwf.2.1 hok.2.1 hsa
    obtain ⟨b', hb, h2, hc2, hr2⟩ := ihb hwf.2.2.1 hok.2.2.1 hsb
    have hsh : b.plain.shape = a.plain.shape := hwf.2.2.2.2.2.2.1
    have hret : (c'.isConstant && a'.isConstant && b'.isConstant) = true ∨ a.plain.shape.isScl = true ∨ a'.retKind = b'.retKind := by
      rw [hc0, hc1, hc2]
      rcases hok.2.2.2.2.2 with h | h | h
      · exact .inl h
      · exact .inr (.inl h)
      · rcases hr1 with h3 | h3
        · exact .inr (.inl h3)
        · rcases hr2 with h4 | h4
          · rw [hsh] at h4; exact .inr (.inl h4)
          · exact .inr (.inr (by rw [h3, h4, h]))
    obtain ⟨e', he, hsame, hcst, hrk⟩ := build_ifElse hwf hsc hsa hsb h0 h1 h2 hret
    rw [hc0, hc1, hc2] at hcst hrk
    refine ⟨e', by simp only [Src.build, hc, ha, hb]; exact he, hsame, hcst, ?_⟩
    have hpl : (Src.ifElse c a b).plain.shape = a.plain.shape := Eq.refl _
    rcases hr1 with h3 | h3
    · left; rw [hpl]; exact h3
    · rcases hrk with h4 | h4
      · exact .inl h4
      · right; rw [h4, h3]; simp only [Src.ret]
  | sumRange k cst es ih =>
    intro hwf hok hs
    simp only [Src.plain, Src.Ok] at hwf hok hs
    have hs : ∀ x ∈ es.plains.toList, ConstsAt s m x := fun x hx c hc => hs c (mem_cviewss.2 ⟨x, hx, hc⟩)
    obtain ⟨es', he, h, hc⟩ := ih k cst hwf.1 hok.1 hs
    have := build_sumRange hwf hs h hc hok.2
    simp only [Option.bind_eq_bind, Option.bind_some, Src.build, he, Src.isConst, Src.ret, Src.plain]
    exact this
  | prodRange k cst es ih =>
    intro hwf hok hs
    simp only [Src.plain, Src.Ok] at hwf hok hs
    have hs : ∀ x ∈ es.plains.toList, ConstsAt s m x := fun x hx c hc => hs c (mem_cviewss.2 ⟨x, hx, hc⟩)
    obtain ⟨es', he, h, hc⟩ := ih k cst hwf.1 hok.1 hs
    have := build_prodRange hwf hs h hc hok.2.1 (fun h1 h2 h3 => by
      obtain ⟨e, es', rfl⟩ := hok.2.2 h1 h2
      simp [Srcs.plains] at h3)
    simp only [Option.bind_eq_bind, Option.bind_some, Src.build, he, Src.isConst, Src.ret, Src.plain]
    exact this
  | nil => exact ⟨_, rfl, trivial, by simp [Exprs.toList]⟩
  | cons e es ih ihs =>
    rename_i k cst hwf hok hs
    simp only [Srcs.plains, Srcs.Oks] at hwf hok hs
    obtain ⟨e', he, h, hc, -⟩ := ih hwf.1 hok.1.1 (hs _ (by simp [Exprs.toList]))
    obtain ⟨es', hes, h', hc'⟩ := ihs k cst hwf.2 hok.2 fun x hx => hs x (by simp [Exprs.toList, hx])
    refine ⟨.cons e' es', by simp only [Srcs.builds, he, hes]; rfl, ⟨h, h'⟩, ?_⟩
    intro x hx
    simp only [Exprs.toList, List.mem_cons] at hx
    rcases hx with rfl | hx
    · rw [hc, hok.1.2.2.1]
    · exact hc' x hx

/-! ### Later evaluations -/

/-- the value of a constant expression depends on the constant buffers only -/
theorem const_denote [LawfulLinAlg] {s : St ℝ} {m m' : ℕ → ℝ} {e : Src ℝ} (hc : e.isConst = true) (hwf : e.plain.WF) (hok : e.Ok m)
    (hok' : e.Ok m') (hs : ConstsAt s m e.plain) (hs' : ConstsAt s m' e.plain) : ∀ k < e.plain.size, e.plain.denote m k = e.plain.denote m' k := by
  intro k hk
  obtain ⟨e1, h1, hsame, hcst, -⟩ := build_ok e hwf hok hs
  obtain ⟨e2, h2, hsame', -, -⟩ := build_ok e hwf hok' hs'
  obtain rfl : e1 = e2 := by simpa using h1.symm.trans h2
  have r1 := hs.read hsame (hcst.trans hc)
  have r2 := hs'.read hsame' (hcst.trans hc)
  have := congrFun (Option.some.inj (r1.symm.trans r2)) k
  rwa [trunc_of_lt hk, trunc_of_lt hk] at this

theorem Decomp.Fits.congr {d : Decomp} {sh : Shape} {x y : ℕ → ℝ} (hsq : sh.rows = sh.cols) (h : ∀ k < sh.size, x k = y k)
    (hf : d.Fits sh.rows x) : d.Fits sh.rows y := by
  have hsz : sh.size = sh.rows * sh.rows := by rw [Shape.size, ← hsq]
  have h1 : trunc (sh.rows * sh.rows) x = trunc (sh.rows * sh.rows) y := trunc_congr (by rw [← hsz]; exact h)
  have h2 : toMat sh.rows x = toMat sh.rows y := by rw [← toMat_trunc, h1, toMat_trunc]
  cases d with
  | lu => trivial
  | ldlt => exact ⟨h2 ▸ hf.1, h1 ▸ hf.2⟩
  | llt => exact ⟨h2 ▸ hf.1, h1 ▸ hf.2⟩

/-- the requirements on a source expression depend on the constant buffers only -/
theorem Src.Ok.congr [LawfulLinAlg] {s : St ℝ} {m m' : ℕ → ℝ} (e : Src ℝ) :
    e.plain.WF → ConstsAt s m e.plain → ConstsAt s m' e.plain → e.Ok m → e.Ok m' := by
  induction e using Src.rec (motive_2 := fun es => ∀ k cst, es.plains.WFs → (∀ x ∈ es.plains.toList, ConstsAt s m x) →
    (∀ x ∈ es.plains.toList, ConstsAt s m' x) → es.Oks m k cst → es.Oks m' k cst) with
  | var | const | cview => intros; trivial
  | unary op e ih | pow n e ih | prod e ih =>
    intro hwf hs hs' hok
    simp only [Src.plain, Src.Ok] at hwf hok hs hs' ⊢
    exact ⟨ih hwf.1 hs hs' hok.1, hok.2⟩
  | transpose e ih =>
    intro hwf hs hs' hok
    simp only [Src.plain, Src.Ok] at hwf hok hs hs' ⊢
    exact ⟨ih hwf.1 hs hs' hok.1, hok.2⟩
  | sum e ih | norm e ih =>
    intro hwf hs hs' hok
    simp only [Src.plain, Src.Ok] at hwf hok hs hs' ⊢
    exact ⟨ih hwf.1.1 (fun c hc => hs c (by simp [Expr.mkReduce, Expr.cviews, Exprs.cviewss, hc]))
      (fun c hc => hs' c (by simp [Expr.mkReduce, Expr.cviews, Exprs.cviewss, hc])) hok.1, hok.2⟩
  | det d e ih | logDet d e ih =>
    intro hwf hs hs' hok
    simp only [Src.plain, Src.Ok] at hwf hok hs hs' ⊢
    have h1 : ConstsAt s m e.plain := fun c hc => hs c (by simp [Expr.mkReduce, Expr.cviews, Exprs.cviewss, hc])
    have h2 : ConstsAt s m' e.plain := fun c hc => hs' c (by simp [Expr.mkReduce, Expr.cviews, Exprs.cviewss, hc])
    have h3 := ih hwf.1.1 h1 h2 hok.1
    obtain ⟨hso, -⟩ := reduce_single hwf
    exact ⟨h3, hok.2.1, fun hc => (hok.2.2 hc).congr hso.2 (const_denote hc hwf.1.1 hok.1 h3 h1 h2)⟩
  | binary op l r ihl ihr =>
    intro hwf hs hs' hok
    simp only [Src.plain, Src.Ok] at hwf hok hs hs' ⊢
    exact ⟨ihl hwf.1 (fun c hc => hs c (by simp [Expr.mkBinary, Expr.cviews, hc])) (fun c hc => hs' c (by simp [Expr.mkBinary, Expr.cviews, hc])) hok.1,
      ihr hwf.2.1 (fun c hc => hs c (by simp [Expr.mkBinary, Expr.cviews, hc])) (fun c hc => hs' c (by simp [Expr.mkBinary, Expr.cviews, hc])) hok.2.1,
      hok.2.2⟩
  | dot l r ihl ihr =>
    intro hwf hs hs' hok
    simp only [Src.plain, Src.Ok] at hwf hok hs hs' ⊢
    exact ⟨ihl hwf.1 (fun c hc => hs c (by simp [Expr.mkDot, Expr.cviews, hc])) (fun c hc => hs' c (by simp [Expr.mkDot, Expr.cviews, hc])) hok.1,
      ihr hwf.2.1 (fun c hc => hs c (by simp [Expr.mkDot, Expr.cviews, hc])) (fun c hc => hs' c (by simp [Expr.mkDot, Expr.cviews, hc])) hok.2.1,
      hok.2.2⟩
  | ifElse c a b ihc iha ihb =>
    intro hwf hs hs' hok
    simp only [Src.plain, Src.Ok] at hwf hok hs hs' ⊢
    exact ⟨ihc hwf.1 (fun x hx => hs x (by simp [Expr.mkIfElse, Expr.cviews, hx])) (fun x hx => hs' x (by simp [Expr.mkIfElse, Expr.cviews, hx])) hok.1,
      iha hwf.2.1 (fun x hx => hs x (by simp [Expr.mkIfElse, Expr.cviews, hx])) (fun x hx => hs' x (by simp [Expr.mkIfElse, Expr.cviews, hx])) hok.2.1,
      ihb hwf.2.2.1 (fun x hx => hs x (by simp [Expr.mkIfElse, Expr.cviews, hx])) (fun x hx => hs' x (by simp [Expr.mkIfElse, Expr.cviews, hx])) hok.2.2.1,
      hok.2.2.2⟩
  | sumRange k cst es ih | prodRange k cst es ih =>
    intro hwf hs hs' hok
    simp only [Src.plain, Src.Ok] at hwf hok hs hs' ⊢
    exact ⟨ih k cst hwf.1 (fun x hx c hc => hs c (mem_cviewss.2 ⟨x, hx, hc⟩)) (fun x hx c hc => hs' c (mem_cviewss.2 ⟨x, hx, hc⟩)) hok.1, hok.2⟩
  | nil => trivial
  | cons e es ih ihs =>
    rename_i k cst hwf hs hs' hok
    simp only [Srcs.plains, Srcs.Oks] at hwf hok hs hs' ⊢
    exact ⟨⟨ih hwf.1 (hs _ (by simp [Exprs.toList])) (hs' _ (by simp [Exprs.toList])) hok.1.1, hok.1.2⟩,
      ihs k cst hwf.2 (fun x hx => hs x (by simp [Exprs.toList, hx])) (fun x hx => hs' x (by simp [Exprs.toList, hx])) hok.2⟩

theorem constsAt_of {s : St ℝ} {m : ℕ → ℝ} {e : Expr ℝ} (hal : ∀ c ∈ e.cviews, accessible s.vok c.2 c.1.size)
    (hm : ∀ a ∈ e.constCells, m a = s.val a) : ConstsAt s m e :=
  fun c hc => ⟨hal c hc, fun _ hk => (hm _ (mem_constCells.2 ⟨c, hc, add_mem_rng hk⟩)).symm⟩

end FastAD
