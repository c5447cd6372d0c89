import Verif.Proof.Params
import Verif.Props.Storage

/-!
# C45: parameters in one contiguous vector

README.md "Advanced Usage".
-/

namespace FastAD

/-- **C45, layout.** Variables bound one after the other from the pointers `qv` (values) and `qa` (adjoints) on lie one after the other: the `i`-th one begins where the
first `i` end, the pointers returned at the end are those behind the last one, and every coefficient of the block belongs to exactly one coefficient
of one variable (the same for values and adjoints). -/
theorem C45_layout (shs : List Shape) (qv qa : ℕ) :
    (bindViews shs ⟨some qv, some qa⟩).2 = ⟨some (qv + (shs.map Shape.size).sum), some (qa + (shs.map Shape.size).sum)⟩ ∧
    (bindViews shs ⟨some qv, some qa⟩).1.map View.shape = shs ∧
    (∀ (i : ℕ) (v : View), (bindViews shs ⟨some qv, some qa⟩).1[i]? = some v →
      v.val = some (qv + ((shs.take i).map Shape.size).sum) ∧ v.adj = some (qa + ((shs.take i).map Shape.size).sum) ∧
      v.InBlock qv qa (shs.map Shape.size).sum) ∧
    ∀ o < (shs.map Shape.size).sum, ∃! x : ℕ × ℕ, ∃ v, (bindViews shs ⟨some qv, some qa⟩).1[x.1]? = some v ∧ x.2 < v.size ∧
      addr v.val + x.2 = qv + o ∧ addr v.adj + x.2 = qa + o := by
  obtain ⟨h1, h2, h3⟩ := bindViews_spec shs qv qa
  refine ⟨h1, h2, fun i v hv => ?_, fun o ho => ?_⟩
  · obtain ⟨-, e1, e2, e3⟩ := h3 i v hv
    refine ⟨e1, e2, fun k hk => ⟨((shs.take i).map Shape.size).sum + k, by omega, ?_, ?_⟩⟩
    · rw [e1, addr_some]; omega
    · rw [e2, addr_some]; omega
  · obtain ⟨i, v, k, e1, e2, e3, e4⟩ := bindViews_cover shs qv qa o ho
    refine ⟨(i, k), ⟨v, e1, e2, e3, e4⟩, fun y hy => ?_⟩
    obtain ⟨w, f1, f2, f3, -⟩ := hy
    obtain ⟨g1, g2⟩ := bindViews_disjoint f1 e1 f2 e2 (f3.trans e3.symm)
    exact Prod.ext g1 g2

/-- C45 applied to a scalar, a vector of 3 and a 2×2 matrix -/
example : (bindViews [.scl, .vec 3, .mat 2 2] ⟨some 100, some 200⟩).1 =
    [⟨.scl, some 100, some 200⟩, ⟨.vec 3, some 101, some 201⟩, ⟨.mat 2 2, some 104, some 204⟩] := by decide

variable [HasInf ℝ] [LinAlg ℝ]

/-- **C45, gradient.** Let all variables of a program lie in a block of `N` parameters or in a working area that contains the placeholders, and let the program be bound to caches elsewhere.
If the adjoints of the assigned variables are zero, `autodiff` returns the value of the program and the block of adjoints increases by the gradient of
`∑ₖ seed k * p_k` as a function of the vector of parameters (the Fréchet derivative on `ℝᴺ`); parameters that the program does not mention included. -/
theorem C45_contiguous_gradient [LawfulLinAlg] {p : Expr ℝ} {s : St ℝ} {b : Pack} {UV UA : Set ℕ} {qv qa N wv wa M : ℕ} (hp : p.Program)
    (hw : p.Within UV UA s.vok s.aok) (hr : p.Room b UV UA s.vok s.aok) (hpar : p.Params qv qa N wv wa M) (hU : ∀ i < N, qa + i ∈ UA)
    (hz : ∀ a ∈ p.targetAdj, s.adj a = 0) (seed : ℕ → ℝ) :
    ∃ s' r, autodiff (p.bind b).1 seed s = some (s', r) ∧ (p.Stable → r.read s' p.size = some (trunc p.size (p.result s.val))) ∧
      (RegSeq p.flat (fun θ : Fin N → ℝ => withParams s.val qv θ) (fun i => s.val (qv + i)) →
        HasFDerivAt (fun θ : Fin N → ℝ => ∑ k ∈ Finset.range p.size, seed k * p.result (withParams s.val qv θ) k)
          (∑ i : Fin N, (s'.adj (qa + i) - s.adj (qa + i)) • ContinuousLinearMap.proj (R := ℝ) (φ := fun _ : Fin N => ℝ) i)
          fun i => s.val (qv + i)) := by
  obtain ⟨s', r, e1, -, -, e4, -, e6⟩ := storage_step hp hw hr seed
  have hsz : (p.bind b).1.size = p.size := congrArg Shape.size (Expr.shape_of_strip (bind_strip p b))
  refine ⟨s', r, e1, fun h => hsz ▸ e4 h, fun hreg => ?_⟩
  rw [Finset.sum_congr rfl fun (i : Fin N) _ => by rw [e6 (qa + i) (hr.offRng.2 _ (hU i i.2))]]
  exact params_gradient hp hpar hreg seed s.adj hz

/-! ### The program of the README -/

namespace ReadmeAdvanced

/-- `x` and `v` are bound one after the other to `vals`, `adjs` (cells 0 to 3), `w` to `w_vals`, `w_adjs` (cells 4 to 6) -/
def x : View := ⟨.scl, some 0, some 0⟩
/-- see `x` -/
def v : View := ⟨.vec 3, some 1, some 1⟩
/-- see `x` -/
def w : View := ⟨.vec 3, some 4, some 4⟩

/-- README.md:473-476: `w = cos(v), sin(x) + w + sum(w)` -/
def p : Expr ℝ :=
  .mkGlue (.mkEq w (.mkUnary .cos (.var v)))
    (.mkBinary .add (.mkBinary .add (.mkUnary .sin (.var x)) (.var w)) (.mkReduce .sum (.cons (.var w) .nil)))

omit [HasInf ℝ] [LinAlg ℝ] in
theorem views : (bindViews [.scl, .vec 3] ⟨some 0, some 0⟩).1 = [x, v] := by decide

omit [HasInf ℝ] [LinAlg ℝ] in
theorem flat : p.flat = [.mkEq w (.mkUnary .cos (.var v)),
    .mkBinary .add (.mkBinary .add (.mkUnary .sin (.var x)) (.var w)) (.mkReduce .sum (.cons (.var w) .nil))] := rfl

omit [HasInf ℝ] [LinAlg ℝ] in
theorem program : p.Program := by
  have h1 : (Expr.mkEq w (.mkUnary .cos (.var v)) : Expr ℝ).WFStmt := by
    refine ⟨⟨?_, ?_, ?_⟩, ?_, ?_, ?_, ?_, ?_⟩ <;>
      simp [Expr.WF, Expr.mkUnary, Expr.shape, Expr.view, View.null, v, w, Shape.vec, Shape.Ok, Expr.isIf, Expr.Assignable, View.size, Shape.size]
    decide
  have h2 : (.mkBinary .add (.mkBinary .add (.mkUnary .sin (.var x)) (.var w)) (.mkReduce .sum (.cons (.var w) .nil)) : Expr ℝ).WFStmt := by
    refine ⟨⟨⟨⟨?_, ?_, ?_⟩, ?_, ?_, ?_, ?_⟩, ⟨⟨?_, trivial⟩, ?_, .inl ⟨_, rfl, ?_, ?_⟩⟩, ?_, ?_, ?_⟩, ?_, ?_⟩ <;>
      simp [Expr.WF, Expr.mkReduce, Expr.mkBinary, Expr.mkUnary, Expr.shape, Expr.view, View.null, Expr.binShape, Shape.ofDims, Shape.maxKind, x, w, Shape.scl, Shape.vec, Shape.Ok,
        binDimsOk, sameDims, Shape.isScl, Expr.isIf, BOp.isComparison, View.size, Shape.size, RedOp.ShapeOk, Expr.NotConst]
  refine ⟨⟨h1, h2, by simp [Expr.flat, Expr.mkBinary], rfl⟩, ?_, by simp [flat]⟩
  rw [flat]
  simp [UsedAfter, Expr.mkBinary, Expr.placeholder]

omit [HasInf ℝ] [LinAlg ℝ] in
theorem vars : ∀ u ∈ p.vars, u = w ∨ u = v ∨ u = x := by
  intro u hu
  simp only [p, Expr.mkGlue, Expr.mkEq, Expr.mkBinary, Expr.mkReduce, Expr.mkUnary, Expr.vars, Exprs.varss, List.append_nil, List.mem_append,
    List.mem_cons, List.not_mem_nil, or_false] at hu
  rcases hu with (rfl | rfl) | (rfl | rfl) | rfl <;> simp

omit [HasInf ℝ] [LinAlg ℝ] in
theorem params : p.Params 0 0 4 4 4 3 := by
  refine ⟨fun u hu => ?_, fun y hy u hu => ?_, ?_, ?_, ?_⟩
  · rcases vars u hu with rfl | rfl | rfl
    · exact Or.inr fun k hk => ⟨k, hk, rfl, rfl⟩
    · exact Or.inl fun k hk => ⟨k + 1, by simp [View.size, Shape.size, v, Shape.vec] at hk; omega, by simp [v, addr]; omega, by simp [v, addr]; omega⟩
    · exact Or.inl fun k hk => ⟨k, by simp [View.size, Shape.size, x, Shape.scl] at hk; omega, by simp [x, addr], by simp [x, addr]⟩
  · rw [flat] at hy
    simp only [List.mem_cons, List.not_mem_nil, or_false] at hy
    rcases hy with rfl | rfl
    · cases hu
      exact fun k hk => ⟨k, hk, rfl, rfl⟩
    · cases hu
  · have : p.constCells = ∅ := by decide
    rw [this]; simp
  · intro i hi j hj; omega
  · intro i hi j hj; omega

theorem result (m : ℕ → ℝ) (k : ℕ) (hk : k < 3) :
    p.result m k = Real.sin (m 0) + Real.cos (m (1 + k)) + (Real.cos (m 1) + Real.cos (m 2) + Real.cos (m 3)) := by
  have h : ∀ j < 3, assign m w (fun k => Real.cos (m (1 + k))) (4 + j) = Real.cos (m (1 + j)) := fun j hj => assign_add (v := w) hj
  have h0 : assign m w (fun k => Real.cos (m (1 + k))) 0 = m 0 := by simp [assign, w, addr]
  have e : ∀ A : ℕ → ℝ, (Expr.mkBinary .add (.mkBinary .add (.mkUnary .sin (.var x)) (.var w)) (.mkReduce .sum (.cons (.var w) .nil))).denote A k =
      Real.sin (A 0) + A (4 + k) + (A (4 + 0) + A (4 + 1) + A (4 + 2)) := by
    intro A
    simp [Expr.mkBinary, Expr.mkUnary, Expr.mkReduce, Expr.denote, Exprs.denotes, RedOp.reals, RedOp.real, BOp.real, UOp.real, Expr.shape, Expr.view, Shape.isScl,
      View.null, x, w, addr, Shape.scl, Shape.vec, Shape.size, Finset.sum_range_succ, Expr.binShape, Shape.ofDims, Shape.maxKind]
  refine (e (assign m w fun k => Real.cos (m (1 + k)))).trans ?_
  rw [h0, h k hk, h 0 (by omega), h 1 (by omega), h 2 (by omega)]

theorem reg {E : Type} [NormedAddCommGroup E] [NormedSpace ℝ E] (ρ : E → ℕ → ℝ) (x0 : E) : RegSeq p.flat ρ x0 := by
  rw [flat]
  simp [RegSeq, Expr.RegStmt, Expr.mkEq, Expr.mkReduce, Expr.mkBinary, Expr.mkUnary, Expr.Reg, Exprs.Regs, BOp.isComparison, Exprs.toList,
    RedOp.RegAt, RedOp.RegsAt, UOp.DomAt]

end ReadmeAdvanced

/-- **C45, the program of README.md "Advanced Usage"** (with `bind` as it is in the code), for all values of `x` and `v`, all seeds, any contents of `w` and any caches: after `autodiff`
the contiguous block `adjs` has increased by `cos(x) (seed₀ + seed₁ + seed₂)` and `-sin(vᵢ) (seedᵢ + seed₀ + seed₁ + seed₂)`. -/
theorem C45_readme_advanced [LawfulLinAlg] {s : St ℝ} {b : Pack} {UV UA : Set ℕ} (hw : ReadmeAdvanced.p.Within UV UA s.vok s.aok)
    (hr : ReadmeAdvanced.p.Room b UV UA s.vok s.aok) (hz : ∀ i < 3, s.adj (4 + i) = 0) (seed : ℕ → ℝ) :
    ∃ s' r, autodiff (ReadmeAdvanced.p.bind b).1 seed s = some (s', r) ∧
      r.read s' 3 = some (trunc 3 fun k => Real.sin (s.val 0) + Real.cos (s.val (1 + k)) + (Real.cos (s.val 1) + Real.cos (s.val 2) + Real.cos (s.val 3))) ∧
      s'.adj 0 = s.adj 0 + Real.cos (s.val 0) * (seed 0 + seed 1 + seed 2) ∧
      ∀ i < 3, s'.adj (1 + i) = s.adj (1 + i) - Real.sin (s.val (1 + i)) * (seed i + (seed 0 + seed 1 + seed 2)) := by
  have hadj : ReadmeAdvanced.p.adjCells = {0, 1, 2, 3, 4, 5, 6} := by decide
  have ht : ∀ a ∈ ReadmeAdvanced.p.targetAdj, s.adj a = 0 := by
    have : ReadmeAdvanced.p.targetAdj = {4, 5, 6} := by decide
    rw [this]
    intro a ha
    simp only [Finset.mem_insert, Finset.mem_singleton] at ha
    rcases ha with rfl | rfl | rfl
    · exact hz 0 (by omega)
    · exact hz 1 (by omega)
    · exact hz 2 (by omega)
  obtain ⟨s', r, h1, h2, h3⟩ := C45_contiguous_gradient ReadmeAdvanced.program hw hr ReadmeAdvanced.params
    (fun i hi => hw.adj _ (by rw [hadj]; simp; omega)) ht seed
  have hd := h3 (ReadmeAdvanced.reg _ _)
  have hf : ∀ θ : Fin 4 → ℝ, ∑ k ∈ Finset.range ReadmeAdvanced.p.size, seed k * ReadmeAdvanced.p.result (withParams s.val 0 θ) k =
      seed 0 * (Real.sin (θ 0) + Real.cos (θ 1) + (Real.cos (θ 1) + Real.cos (θ 2) + Real.cos (θ 3))) +
      seed 1 * (Real.sin (θ 0) + Real.cos (θ 2) + (Real.cos (θ 1) + Real.cos (θ 2) + Real.cos (θ 3))) +
      seed 2 * (Real.sin (θ 0) + Real.cos (θ 3) + (Real.cos (θ 1) + Real.cos (θ 2) + Real.cos (θ 3))) := by
    intro θ
    have e : ∀ i : Fin 4, withParams s.val 0 θ i = θ i := fun i => by simpa using withParams_in (m := s.val) (qv := 0) θ i
    have e0 := e 0
    have e1 := e 1
    have e2 := e 2
    have e3 := e 3
    simp only [Fin.val_zero, Fin.val_one, Fin.val_two] at e0 e1 e2 e3
    rw [show ReadmeAdvanced.p.size = 3 from rfl]
    simp only [Finset.sum_range_succ, Finset.sum_range_zero, zero_add]
    rw [ReadmeAdvanced.result _ 0 (by omega), ReadmeAdvanced.result _ 1 (by omega), ReadmeAdvanced.result _ 2 (by omega)]
    simp only [Nat.reduceAdd, e0, e1, e2, show withParams s.val 0 θ 3 = θ 3 from e3]
  simp only [hf] at hd
  have hp := fun i : Fin 4 => hasFDerivAt_apply (𝕜 := ℝ) (F' := fun _ : Fin 4 => ℝ) i fun i : Fin 4 => s.val (0 + i)
  have hD := (((((hp 0).sin.add (hp 1).cos).add (((hp 1).cos.add (hp 2).cos).add (hp 3).cos)).const_mul (seed 0)).add
    ((((hp 0).sin.add (hp 2).cos).add (((hp 1).cos.add (hp 2).cos).add (hp 3).cos)).const_mul (seed 1))).add
    ((((hp 0).sin.add (hp 3).cos).add (((hp 1).cos.add (hp 2).cos).add (hp 3).cos)).const_mul (seed 2))
  have hu := hd.unique hD
  have key := fun i : Fin 4 => congrArg (fun L => L (Pi.single i 1)) hu
  simp only [_root_.sum_apply, _root_.smul_apply, _root_.add_apply, ContinuousLinearMap.proj_apply, smul_eq_mul, Fin.sum_univ_four] at key
  refine ⟨s', r, h1, ?_, ?_, fun i hi => ?_⟩
  · rw [show (3 : ℕ) = ReadmeAdvanced.p.size from rfl, h2 (Or.inr ?_)]
    · exact congrArg some (trunc_congr fun k hk => ReadmeAdvanced.result _ k hk)
    · intro y hy
      rw [ReadmeAdvanced.flat] at hy
      cases hy
      trivial
  · have := key 0
    simp [Pi.single_apply] at this
    linarith
  · have h' : i = 0 ∨ i = 1 ∨ i = 2 := by omega
    rcases h' with rfl | rfl | rfl
    · have := key 1
      simp [Pi.single_apply] at this
      simp only [Nat.add_zero, Nat.reduceAdd]
      linarith
    · have := key 2
      simp [Pi.single_apply] at this
      simp only [Nat.add_zero, Nat.reduceAdd]
      linarith
    · have := key 3
      simp [Pi.single_apply] at this
      simp only [Nat.add_zero, Nat.reduceAdd]
      linarith

/-- C45 applied: x = 0, v = (1, 2, 3), adjoints of 5 left over in `adjs`, caches from cell 10 on, seed (1, 0, 0): the adjoint of `x` becomes 5 + cos 0 = 6
(an instance of `C45_readme_advanced` and, through it, of `C45_contiguous_gradient`) -/
example [LawfulLinAlg] : ∃ s' r, autodiff (ReadmeAdvanced.p.bind ⟨some 10, some 10⟩).1 (fun k => if k = 0 then 1 else 0)
      ⟨fun a => (a : ℝ), fun a => if a < 4 then 5 else 0, fun _ => true, fun _ => true⟩ = some (s', r) ∧
    s'.adj 0 = 6 ∧ s'.adj 1 = 5 - Real.sin 1 * 2 ∧ s'.adj 2 = 5 - Real.sin 2 := by
  obtain ⟨s', r, h1, -, h3, h4⟩ := C45_readme_advanced (UV := {a | a < 7}) (UA := {a | a < 7}) (b := ⟨some 10, some 10⟩)
    (s := ⟨fun a => (a : ℝ), fun a => if a < 4 then 5 else 0, fun _ => true, fun _ => true⟩)
    ⟨⟨fun u hu => by rcases ReadmeAdvanced.vars u hu with rfl | rfl | rfl <;> exact ⟨fun _ _ => rfl, fun _ _ => rfl⟩, fun c hc => by
        simp [ReadmeAdvanced.p, Expr.mkGlue, Expr.mkEq, Expr.mkBinary, Expr.mkReduce, Expr.mkUnary, Expr.cviews, Exprs.cviewss] at hc⟩,
      by
        have : ReadmeAdvanced.p.valCells ∪ ReadmeAdvanced.p.constCells = {0, 1, 2, 3, 4, 5, 6} := by decide
        rw [this]; intro a ha; fin_cases ha <;> simp,
      by
        have : ReadmeAdvanced.p.adjCells = {0, 1, 2, 3, 4, 5, 6} := by decide
        rw [this]; intro a ha; fin_cases ha <;> simp⟩
    ⟨fun _ _ => rfl, fun _ _ => rfl, fun k _ h => by simp only [addr_some, Set.mem_ofPred_eq] at h; omega,
      fun k _ h => by simp only [addr_some, Set.mem_ofPred_eq] at h; omega⟩
    (fun i _ => if_neg (by omega)) fun k => if k = 0 then 1 else 0
  refine ⟨s', r, h1, ?_, ?_, ?_⟩
  · rw [h3]; norm_num
  · have := h4 0 (by omega)
    norm_num at this
    exact this
  · have := h4 1 (by omega)
    norm_num at this
    exact this

end FastAD
