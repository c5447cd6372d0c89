import Verif.Model.Readme
import Verif.Proof.Session
import Verif.Proof.Nodes
import Verif.Proof.ProgApi

/-!
# Example programs of the README: helper lemmas
-/

namespace FastAD

namespace Readme
set_option linter.unusedSimpArgs false

variable [HasInf ℝ] [LinAlg ℝ]

/-- Binding, differentiation and reading of adjoints, seen from the memory before -/
theorem auto_read {e : Expr ℝ} {s : St ℝ} {qv qa : ℕ} {jv ja : ℕ → ℝ} (hwf : e.WF) (hal : e.Alive s.vok s.aok) (hf : Fresh s e.bindSize qv qa) (seed : ℕ → ℝ) :
    ∃ s' r, autodiff (bindExpr e qv qa jv ja s).1 seed (bindExpr e qv qa jv ja s).2 = some (s', r) ∧ r.read s' e.size = some (trunc e.size (e.denote s.val)) ∧
      ∀ q n, (∀ k < n, s.aok (q + k) = true) → s'.readA (some q) n = some (trunc n fun k => s.adj (q + k) + e.grad s.val seed (q + k)) := by
  obtain ⟨s', r, h⟩ := bindExpr_autodiff (jv := jv) (ja := ja) hwf hal hf seed
  have hb := bindExpr_bnd (jv := jv) (ja := ja) hwf hal hf
  obtain ⟨s'', r', h'⟩ := hb.autodiff (m := (bindExpr e qv qa jv ja s).2.val) (fun _ _ => rfl) seed
  have hs : s' = s'' := by
    have := h'.run
    rw [h.run] at this
    simp only [Option.some.injEq, Prod.mk.injEq] at this
    exact this.1
  refine ⟨s', r, h.run, h.value, fun q n hq => ?_⟩
  rw [St.readA, readCells, if_pos]
  · exact congrArg some (trunc_congr fun k hk => by simpa [addr] using h.adj (q + k) (hq k hk))
  · intro k hk
    rw [hs, h'.aok]
    simp [bindExpr, St.allocate, hq k hk]

omit [HasInf ℝ] [LinAlg ℝ] in
theorem map_trunc (n : ℕ) (f g : ℕ → ℝ) (h : ∀ k < n, f k = g k) : (List.range n).map (trunc n f) = (List.range n).map g :=
  List.map_congr_left fun k hk => by rw [List.mem_range] at hk; rw [trunc_of_lt hk, h k hk]

section
variable {n p q : ℕ} {S : ℕ → ℝ}

omit [HasInf ℝ] [LinAlg ℝ] in
theorem quadratic_wf : (quadraticExpr n p q S : Expr ℝ).WF := by
  refine ⟨⟨⟨trivial, by simp [matVar, Expr.shape, Expr.view, Shape.mat], rfl⟩, trivial, rfl, by simp [Expr.shape, Expr.view, View.null, Shape.mat], rfl, rfl, rfl, rfl⟩, trivial, rfl, by simp [matVar, Expr.shape, Expr.view, Shape.mat], rfl, rfl, rfl, rfl⟩

theorem quadratic_denote (m : ℕ → ℝ) : (quadraticExpr n p q S : Expr ℝ).denote m 0 = ∑ k ∈ Finset.range n, (∑ j ∈ Finset.range n, m (p + j) * S (j + k * n)) * m (p + k) := by
  simp [quadraticExpr, Expr.mkDot, Expr.mkTranspose, Expr.denote, Expr.shape, Expr.view, View.null, matVar, Shape.mat, Shape.ofDims, addr, Nat.mod_one]

theorem quadratic_grad (m : ℕ → ℝ) {i : ℕ} (hi : i < n) : (quadraticExpr n p q S : Expr ℝ).grad m (fun _ => 1) (q + i) =
    ∑ j ∈ Finset.range n, m (p + j) * S (i + j * n) + ∑ j ∈ Finset.range n, m (p + j) * S (j + i * n) := by
  simp [quadraticExpr, Expr.mkDot, Expr.mkTranspose, Expr.grad, Expr.denote, Expr.shape, Expr.view, View.null, View.size, Shape.size, matVar, Shape.mat, Shape.ofDims, addr, Nat.mod_one, hi, dotLSeed, dotRSeed, transposed, sumN_eq, Nat.mod_eq_of_lt hi, Nat.div_eq_of_lt hi]

theorem quadratic_run {x : ℕ → ℝ} {qv qa : ℕ} {jv ja : ℕ → ℝ} {s : St ℝ} (hf : Fresh (s.allocate ⟨n, n⟩ p q x fun _ => 0) (quadraticExpr n p q S : Expr ℝ).bindSize qv qa) :
    quadratic n p q x S qv qa jv ja s = some (∑ k ∈ Finset.range n, (∑ j ∈ Finset.range n, x j * S (j + k * n)) * x k,
      (List.range n).map fun i => ∑ j ∈ Finset.range n, x j * S (i + j * n) + ∑ j ∈ Finset.range n, x j * S (j + i * n)) := by
  have hok : ∀ k < n, (s.allocate ⟨n, n⟩ p q x fun _ => 0).vok (p + k) = true ∧ (s.allocate ⟨n, n⟩ p q x fun _ => 0).aok (q + k) = true := fun k hk => by
    simp [St.allocate, hk]
  have hv : ∀ k < n, (s.allocate ⟨n, n⟩ p q x fun _ => 0).val (p + k) = x k := fun k hk => by simp [St.allocate, fillRange, hk]
  have ha : ∀ k < n, (s.allocate ⟨n, n⟩ p q x fun _ => 0).adj (q + k) = 0 := fun k hk => by simp [St.allocate, fillRange, hk]
  obtain ⟨s', r, h1, h2, h3⟩ := auto_read (jv := jv) (ja := ja) quadratic_wf (e := quadraticExpr n p q S) (s := s.allocate ⟨n, n⟩ p q x fun _ => 0) (qv := qv) (qa := qa) ⟨fun w hw => by
      obtain rfl : w = matVar n 1 p q := by simpa [quadraticExpr, Expr.mkDot, Expr.mkTranspose, Expr.vars] using hw
      constructor <;> intro k hk <;> simp only [matVar, View.size, Shape.size, Shape.mat, mul_one] at hk
      · exact (hok k hk).1
      · exact (hok k hk).2, fun c hc => by simp [quadraticExpr, Expr.mkDot, Expr.mkTranspose, Expr.cviews] at hc⟩ hf (fun _ => 1)
  have h2' : r.read s' 1 = some (trunc 1 ((quadraticExpr n p q S).denote (s.allocate ⟨n, n⟩ p q x fun _ => 0).val)) := h2
  simp only [quadratic, h1, h2', h3 q n fun k hk => (hok k hk).2, Option.bind_eq_bind, Option.bind_some, Option.some.injEq, Prod.mk.injEq]
  constructor
  · rw [trunc_of_lt one_pos, quadratic_denote]
    refine Finset.sum_congr rfl fun k hk => ?_
    rw [hv k (Finset.mem_range.1 hk)]
    congr 1
    exact Finset.sum_congr rfl fun j hj => by rw [hv j (Finset.mem_range.1 hj)]
  · refine map_trunc _ _ _ fun i hi => ?_
    rw [ha i hi, zero_add, quadratic_grad _ hi]
    congr 1 <;> exact Finset.sum_congr rfl fun j hj => by rw [hv j (Finset.mem_range.1 hj)]

end

section
variable {n p q p' q' : ℕ}

omit [HasInf ℝ] [LinAlg ℝ] in
theorem basic_wf (hn : n ≠ 0) : (basicExpr n p q p' q' : Expr ℝ).WF := by
  refine ⟨⟨?_, rfl, nofun⟩, ⟨?_, rfl, nofun⟩, ?_, ?_, fun _ => ⟨nofun, nofun⟩⟩
  all_goals simp [sclVar, vecVar, Expr.WF, Shape.Ok, Shape.scl, Shape.vec, Expr.shape, Expr.view, Expr.mkUnary, View.null, Expr.binShape, Shape.maxKind, Shape.ofDims, binDimsOk, Shape.isScl, sameDims]
  all_goals omega

theorem basic_grad_x (m : ℕ → ℝ) (hd : ∀ k < n, q ≠ q' + k) {i : ℕ} (hi : i < n) :
    (basicExpr n p q p' q' : Expr ℝ).grad m (fun k => if k = i then 1 else 0) q = Real.cos (m p) := by
  have h0 : ¬ (q' ≤ q ∧ q < q' + n) := fun h => hd (q - q') (by omega) (by omega)
  simp [basicExpr, Expr.mkBinary, Expr.mkUnary, Expr.binShape, Expr.grad, Expr.denote, Expr.shape, Expr.view, View.size, Shape.size, sclVar, vecVar, addr, h0, hi, collapse, bcast, Shape.scl, Shape.vec, Shape.ofDims, Shape.maxKind, Shape.isScl, sumN_eq, BOp.bl, BOp.br, BOp.isComparison, UOp.bmap, View.null, Fn.sin, Fn.cos]

theorem basic_grad_v (m : ℕ → ℝ) (hd : ∀ k < n, q ≠ q' + k) {i j : ℕ} (hj : j < n) :
    (basicExpr n p q p' q' : Expr ℝ).grad m (fun k => if k = i then 1 else 0) (q' + j) = if j = i then -Real.sin (m (p' + j)) else 0 := by
  have h0 : ¬ (q ≤ q' + j ∧ q' + j ≤ q) := fun h => hd j hj (by omega)
  simp [basicExpr, Expr.mkBinary, Expr.mkUnary, Expr.binShape, Expr.grad, Expr.denote, Expr.shape, Expr.view, View.size, Shape.size, sclVar, vecVar, addr, h0, hj, collapse, bcast, Shape.scl, Shape.vec, Shape.ofDims, Shape.maxKind, Shape.isScl, sumN_eq, BOp.bl, BOp.br, BOp.isComparison, UOp.bmap, View.null, Fn.sin, Fn.cos]
  split_ifs <;> simp

theorem basic_run {x : ℝ} {v : ℕ → ℝ} {qv qa : ℕ} {jv ja : ℕ → ℝ} {s : St ℝ} {i : ℕ} (hi : i < n) (h' : Fresh (s.allocate ⟨1, 1⟩ p q (fun _ => x) fun _ => 0) ⟨n, n⟩ p' q')
    (hf : Fresh ((s.allocate ⟨1, 1⟩ p q (fun _ => x) fun _ => 0).allocate ⟨n, n⟩ p' q' v fun _ => 0) (basicExpr n p q p' q' : Expr ℝ).bindSize qv qa) :
    basic n i p q p' q' x v qv qa jv ja s = some (Real.cos x, (List.range n).map fun j => if j = i then -Real.sin (v j) else 0) := by
  have hp : ¬ (p' ≤ p ∧ p < p' + n) := fun h => by
    have := h'.1 (p - p') (by simp only; omega)
    rw [Nat.add_sub_cancel' h.1] at this
    simp [St.allocate] at this
  have hq : ¬ (q' ≤ q ∧ q < q' + n) := fun h => by
    have := h'.2 (q - q') (by simp only; omega)
    rw [Nat.add_sub_cancel' h.1] at this
    simp [St.allocate] at this
  set s2 := (s.allocate ⟨1, 1⟩ p q (fun _ => x) fun _ => 0).allocate ⟨n, n⟩ p' q' v fun _ => 0 with hs2
  have hok : ∀ k < n, s2.vok (p' + k) = true ∧ s2.aok (q' + k) = true := fun k hk => by
    simp [hs2, St.allocate, hk]
  have hokx : s2.vok p = true ∧ s2.aok q = true := by simp [hs2, St.allocate]
  have hv : ∀ k < n, s2.val (p' + k) = v k := fun k hk => by simp [hs2, St.allocate, fillRange, hk]
  have ha : ∀ k < n, s2.adj (q' + k) = 0 := fun k hk => by simp [hs2, St.allocate, fillRange, hk]
  have hvx : s2.val p = x := by simp [hs2, St.allocate, fillRange, hp]
  have hax : s2.adj q = 0 := by simp [hs2, St.allocate, fillRange, hq]
  have hd : ∀ k < n, q ≠ q' + k := fun k hk h => hq (by omega)
  obtain ⟨s', r, h1, h2, h3⟩ := auto_read (jv := jv) (ja := ja) (basic_wf (by omega)) (e := basicExpr n p q p' q') (s := s2) (qv := qv) (qa := qa) ⟨fun w hw => by
      have hw : w = sclVar p q ∨ w = vecVar n p' q' := by simpa [basicExpr, Expr.mkBinary, Expr.mkUnary, Expr.vars] using hw
      rcases hw with rfl | rfl
      · constructor <;> intro k hk <;> obtain rfl : k = 0 := by simpa [sclVar, View.size, Shape.size, Shape.scl] using hk
        · exact hokx.1
        · exact hokx.2
      · constructor <;> intro k hk <;> simp only [vecVar, View.size, Shape.size, Shape.vec, mul_one] at hk
        · exact (hok k hk).1
        · exact (hok k hk).2, fun c hc => by simp [basicExpr, Expr.mkBinary, Expr.mkUnary, Expr.cviews] at hc⟩ hf (fun k => if k = i then 1 else 0)
  simp only [basic, ← hs2, h1, h3 q' n fun k hk => (hok k hk).2, h3 q 1 fun k hk => by obtain rfl : k = 0 := (by omega); exact hokx.2, Option.bind_eq_bind, Option.bind_some, Option.some.injEq, Prod.mk.injEq]
  constructor
  · rw [trunc_of_lt one_pos, add_zero, hax, zero_add, basic_grad_x _ hd hi, hvx]
  · refine map_trunc _ _ _ fun j hj => ?_
    rw [ha j hj, zero_add, basic_grad_v _ hd hj, hv j hj]

end

section
variable {R C p : ℕ}

theorem more2_back (m A : ℕ → ℝ) : 
    (∀ k < R, (more2 R C p).back m (fun _ => 1) A (p + C + R + R * C + k) = A (p + C + R + R * C + k) + (A (p + C + R + R * C + R) + 1) *
      (∑ i ∈ Finset.range R, m (p + C + R + R * C + i) * m (p + C + i) + (∑ i ∈ Finset.range R, m (p + C + R + R * C + i)) * m (p + C + k))) ∧
    (∀ k < R, (more2 R C p).back m (fun _ => 1) A (p + C + k) = A (p + C + k) + (A (p + C + R + R * C + R) + 1) *
      (∑ i ∈ Finset.range R, m (p + C + R + R * C + i)) * m (p + C + R + R * C + k)) ∧
    (∀ k < C, (more2 R C p).back m (fun _ => 1) A (p + k) = A (p + k)) ∧
    (∀ k < R * C, (more2 R C p).back m (fun _ => 1) A (p + C + R + k) = A (p + C + R + k)) := by
  refine ⟨fun k hk => ?_, fun k hk => ?_, fun k hk => ?_, fun k hk => ?_⟩
  all_goals simp [more2, Expr.mkEq, Expr.mkBinary, Expr.mkReduce, Expr.back, Expr.grad, Exprs.grads, vecVar, matVar, sclVar, mem_rng, addr, View.size, Shape.size, Shape.mat, Shape.vec, Shape.scl, Expr.shape, Expr.view, View.null, Shape.ofDims, Shape.isScl, Expr.binShape, Shape.maxKind, collapse, bcast, Shape.bidx, BOp.isComparison, BOp.bl, BOp.br, BOp.real, Expr.denote, Exprs.denotes, RedOp.reals, RedOp.real, RedOp.bmap, RedOp.bmap1, dotLSeed, dotRSeed, sumN_eq]
  all_goals split_ifs <;> first | (exfalso; omega) | ring

theorem more1_back (m A : ℕ → ℝ) : 
    (∀ k < C, (more1 R C p).back m (fun _ => 0) A (p + k) = A (p + k) + ∑ i ∈ Finset.range R, A (p + C + R + R * C + i) * m (p + C + R + (i + k * R))) ∧
    (∀ k < R, (more1 R C p).back m (fun _ => 0) A (p + C + k) = A (p + C + k) + A (p + C + R + R * C + k)) ∧
    (∀ k < R * C, (more1 R C p).back m (fun _ => 0) A (p + C + R + k) = A (p + C + R + k) + A (p + C + R + R * C + k % R) * m (p + k / R)) := by
  refine ⟨fun k hk => ?_, fun k hk => ?_, fun k hk => ?_⟩
  all_goals simp [more1, Expr.mkEq, Expr.mkBinary, Expr.mkDot, Expr.back, Expr.grad, vecVar, matVar, sclVar, mem_rng, addr, View.size, Shape.size, Shape.mat, Shape.vec, Shape.scl, Expr.shape, Expr.view, View.null, Shape.ofDims, Shape.isScl, Expr.binShape, Shape.maxKind, collapse, bcast, Shape.bidx, BOp.isComparison, BOp.bl, BOp.br, BOp.real, Expr.denote, Exprs.denotes, RedOp.reals, RedOp.real, RedOp.bmap, RedOp.bmap1, dotLSeed, dotRSeed, sumN_eq]
  all_goals split_ifs <;> first | (exfalso; omega) | simp [Nat.mod_eq_of_lt hk, Nat.div_eq_of_lt hk, mul_comm] | simp

theorem more1_exec (m : ℕ → ℝ) :
    (∀ k < R, (more1 R C p).exec m (p + C + R + R * C + k) = ∑ j ∈ Finset.range C, m (p + C + R + (k + j * R)) * m (p + j) + m (p + C + k)) ∧
    (∀ k < R, (more1 R C p).exec m (p + C + k) = m (p + C + k)) := by
  refine ⟨fun k hk => ?_, fun k hk => ?_⟩
  all_goals simp [more1, Expr.mkEq, Expr.mkBinary, Expr.mkDot, Expr.exec, assign, vecVar, matVar, sclVar, mem_rng, addr, View.size, Shape.size, Shape.mat, Shape.vec, Shape.scl, Expr.shape, Expr.view, View.null, Shape.ofDims, Shape.isScl, Expr.binShape, Shape.maxKind, collapse, bcast, Shape.bidx, BOp.isComparison, BOp.bl, BOp.br, BOp.real, Expr.denote, Exprs.denotes, RedOp.reals, RedOp.real, RedOp.bmap, RedOp.bmap1, dotLSeed, dotRSeed, sumN_eq]
  · simp [hk, Nat.mod_eq_of_lt hk, Nat.div_eq_of_lt hk]
  · intro h
    omega

omit [HasInf ℝ] [LinAlg ℝ] in
theorem more_flat : (Expr.mkGlue (more1 R C p) (more2 R C p) : Expr ℝ).flat = [more1 R C p, more2 R C p] := rfl

omit [HasInf ℝ] [LinAlg ℝ] in
theorem more_program : (Expr.mkGlue (more1 R C p) (more2 R C p) : Expr ℝ).Program := by
  have h1 : (more1 R C p : Expr ℝ).WFStmt := by
    simp [more1, Expr.mkEq, Expr.mkBinary, Expr.mkDot, Expr.mkReduce, Expr.WFStmt, Expr.WF, Exprs.WFs, RedOp.ShapeOk, Expr.isIf, Expr.Assignable, binDimsOk, sameDims, Shape.Ok, vecVar, matVar, sclVar, View.size, Shape.size, Shape.mat, Shape.vec, Shape.scl, Expr.shape, Expr.view, View.null, Shape.ofDims, Shape.isScl, Expr.binShape, Shape.maxKind, BOp.isComparison, Expr.valCells, Expr.constCells, Expr.adjCells, Expr.vars, Exprs.varss, Expr.cviews, Exprs.cviewss, cells, addr]
    intro k hk
    refine ⟨?_, ?_, ?_⟩ <;> intro x hx <;> omega
  have h2 : (more2 R C p : Expr ℝ).WFStmt := by
    simp [more2, Expr.mkEq, Expr.mkBinary, Expr.mkDot, Expr.mkReduce, Expr.WFStmt, Expr.WF, Exprs.WFs, RedOp.ShapeOk, Expr.isIf, Expr.Assignable, binDimsOk, sameDims, Shape.Ok, vecVar, matVar, sclVar, View.size, Shape.size, Shape.mat, Shape.vec, Shape.scl, Expr.shape, Expr.view, View.null, Shape.ofDims, Shape.isScl, Expr.binShape, Shape.maxKind, BOp.isComparison, Expr.valCells, Expr.constCells, Expr.adjCells, Expr.vars, Exprs.varss, Expr.cviews, Exprs.cviewss, cells, addr]
    refine ⟨?_, ?_⟩ <;> intro x hx <;> omega
  refine ⟨⟨h1, h2, by simp [more2, Expr.mkEq, Expr.flat], rfl⟩, ?_, by simp [more_flat]⟩
  rw [more_flat]
  simp only [List.pairwise_cons, List.mem_cons, List.not_mem_nil, or_false, forall_eq, List.Pairwise.nil, and_true, false_imp_iff, implies_true]
  simp only [UsedAfter, Option.mem_def, more2, Expr.mkEq, Expr.placeholder, Option.some.injEq, forall_eq']
  simp [more1, Expr.mkEq, Expr.mkBinary, Expr.mkDot, Expr.mkReduce, Expr.WFStmt, Expr.WF, Exprs.WFs, RedOp.ShapeOk, Expr.isIf, Expr.Assignable, binDimsOk, sameDims, Shape.Ok, vecVar, matVar, sclVar, View.size, Shape.size, Shape.mat, Shape.vec, Shape.scl, Expr.shape, Expr.view, View.null, Shape.ofDims, Shape.isScl, Expr.binShape, Shape.maxKind, BOp.isComparison, Expr.valCells, Expr.constCells, Expr.adjCells, Expr.vars, Exprs.varss, Expr.cviews, Exprs.cviewss, cells, addr]
  refine ⟨?_, ?_, ?_, ?_⟩ <;> intro x hx <;> omega

omit [HasInf ℝ] [LinAlg ℝ] in
theorem more_stable : (Expr.mkGlue (more1 R C p) (more2 R C p) : Expr ℝ).Stable := by
  right
  intro x hx
  simp only [more_flat, List.getLast?_cons_cons, List.getLast?_singleton, Option.mem_def, Option.some.injEq] at hx
  subst hx
  trivial

theorem more_result (m : ℕ → ℝ) : (Expr.mkGlue (more1 R C p) (more2 R C p) : Expr ℝ).result m 0 =
    (∑ i ∈ Finset.range R, (more1 R C p).exec m (p + C + R + R * C + i)) * ∑ i ∈ Finset.range R, (more1 R C p).exec m (p + C + R + R * C + i) * (more1 R C p).exec m (p + C + i) := by
  simp [more2, Expr.mkGlue, Expr.mkEq, Expr.mkBinary, Expr.mkReduce, Expr.result, vecVar, matVar, sclVar, mem_rng, addr, View.size, Shape.size, Shape.mat, Shape.vec, Shape.scl, Expr.shape, Expr.view, View.null, Shape.ofDims, Shape.isScl, Expr.binShape, Shape.maxKind, collapse, bcast, Shape.bidx, BOp.isComparison, BOp.bl, BOp.br, BOp.real, Expr.denote, Exprs.denotes, RedOp.reals, RedOp.real, RedOp.bmap, RedOp.bmap1, dotLSeed, dotRSeed, sumN_eq]

omit [HasInf ℝ] [LinAlg ℝ] in
theorem more_alive {vok aok : ℕ → Bool} (h : ∀ k < C + R + R * C + R + 1, vok (p + k) = true ∧ aok (p + k) = true) : (Expr.mkGlue (more1 R C p) (more2 R C p) : Expr ℝ).Alive vok aok := by
  constructor
  · intro u hu
    simp only [more1, more2, Expr.mkGlue, Expr.mkEq, Expr.mkBinary, Expr.mkDot, Expr.mkReduce, Expr.vars, Exprs.varss, List.nil_append, List.append_nil, List.mem_append, List.mem_cons, List.not_mem_nil, or_false] at hu
    have hu : u = vecVar R (p + C + R + R * C) (p + C + R + R * C) ∨ u = matVar R C (p + C + R) (p + C + R) ∨ u = vecVar C p p ∨ u = vecVar R (p + C) (p + C) ∨
        u = sclVar (p + C + R + R * C + R) (p + C + R + R * C + R) := by tauto
    have h1 : ∀ a, p ≤ a → a < p + (C + R + R * C + R + 1) → vok a = true := fun a h1 h2 => by
      have := (h (a - p) (by omega)).1; rwa [Nat.add_sub_cancel' h1] at this
    have h2 : ∀ a, p ≤ a → a < p + (C + R + R * C + R + 1) → aok a = true := fun a h1 h2 => by
      have := (h (a - p) (by omega)).2; rwa [Nat.add_sub_cancel' h1] at this
    rcases hu with rfl | rfl | rfl | rfl | rfl <;> constructor <;> intro k hk <;>
      simp only [vecVar, matVar, sclVar, View.size, Shape.size, Shape.mat, Shape.vec, Shape.scl, mul_one] at hk ⊢ <;> first | (apply h1 <;> omega) | (apply h2 <;> omega)
  · intro c hc
    simp [more1, more2, Expr.mkGlue, Expr.mkEq, Expr.mkBinary, Expr.mkDot, Expr.mkReduce, Expr.cviews, Exprs.cviewss] at hc

/-- `w` -/
def moreW (R C : ℕ) (v1 v2 M : ℕ → ℝ) (k : ℕ) : ℝ := ∑ j ∈ Finset.range C, M (k + j * R) * v1 j + v2 k

/-- the adjoint of `w` -/
def moreG (R C : ℕ) (v1 v2 M : ℕ → ℝ) (k : ℕ) : ℝ :=
  ∑ i ∈ Finset.range R, moreW R C v1 v2 M i * v2 i + (∑ i ∈ Finset.range R, moreW R C v1 v2 M i) * v2 k

theorem more_run {v1 v2 M : ℕ → ℝ} {qv qa : ℕ} {jv ja : ℕ → ℝ} {s : St ℝ}
    (hf : Fresh (s.allocate ⟨C + R + R * C + R + 1, C + R + R * C + R + 1⟩ p p (moreInit R C v1 v2 M) fun _ => 0) (Expr.mkGlue (more1 R C p) (more2 R C p) : Expr ℝ).bindSize qv qa) :
    more R C p v1 v2 M qv qa jv ja s = some ((∑ i ∈ Finset.range R, moreW R C v1 v2 M i) * ∑ i ∈ Finset.range R, moreW R C v1 v2 M i * v2 i,
      (List.range C).map fun j => ∑ i ∈ Finset.range R, moreG R C v1 v2 M i * M (i + j * R),
      (List.range R).map fun i => moreG R C v1 v2 M i + (∑ i ∈ Finset.range R, moreW R C v1 v2 M i) * moreW R C v1 v2 M i,
      (List.range (R * C)).map fun k => moreG R C v1 v2 M (k % R) * v1 (k / R)) := by
  set N := C + R + R * C + R + 1 with hN
  set s0 := s.allocate ⟨N, N⟩ p p (moreInit R C v1 v2 M) fun _ => 0 with hs0
  have hok : ∀ k < N, s0.vok (p + k) = true ∧ s0.aok (p + k) = true := fun k hk => by simp [hs0, St.allocate, hk]
  have hval : ∀ k < N, s0.val (p + k) = moreInit R C v1 v2 M k := fun k hk => by simp [hs0, St.allocate, fillRange, hk]
  have hadj : ∀ k < N, s0.adj (p + k) = 0 := fun k hk => by simp [hs0, St.allocate, fillRange, hk]
  have hoff : ∀ k < N, ¬ (qv ≤ p + k ∧ p + k < qv + (Expr.mkGlue (more1 R C p) (more2 R C p) : Expr ℝ).bindSize.val) := fun k hk h => by
    have := hf.1 (p + k - qv) (by omega)
    rw [Nat.add_sub_cancel' h.1, (hok k hk).1] at this
    cases this
  have hoffA : ∀ k < N, ¬ (qa ≤ p + k ∧ p + k < qa + (Expr.mkGlue (more1 R C p) (more2 R C p) : Expr ℝ).bindSize.adj) := fun k hk h => by
    have := hf.2 (p + k - qa) (by omega)
    rw [Nat.add_sub_cancel' h.1, (hok k hk).2] at this
    cases this
  set b := bindExpr (Expr.mkGlue (more1 R C p) (more2 R C p) : Expr ℝ) qv qa jv ja s0 with hb
  have hval1 : ∀ k < N, b.2.val (p + k) = moreInit R C v1 v2 M k := fun k hk => by
    rw [← hval k hk]; exact if_neg (hoff k hk)
  have hadj1 : ∀ k < N, b.2.adj (p + k) = 0 := fun k hk => by
    rw [← hadj k hk]; exact if_neg (hoffA k hk)
  have m1 : ∀ j < C, b.2.val (p + j) = v1 j := fun j hj => by rw [hval1 j (by omega)]; simp [moreInit, hj]
  have m2 : ∀ j < R, b.2.val (p + C + j) = v2 j := fun j hj => by rw [add_assoc, hval1 (C + j) (by omega)]; simp [moreInit, hj]
  have m3 : ∀ j < R * C, b.2.val (p + C + R + j) = M j := fun j hj => by
    rw [add_assoc, add_assoc, hval1 (C + (R + j)) (by omega), moreInit, if_neg (by omega), if_neg (by omega), if_pos (by omega)]
    congr 1; omega
  have a1 : ∀ j < C, b.2.adj (p + j) = 0 := fun j hj => hadj1 j (by omega)
  have a2 : ∀ j < R, b.2.adj (p + C + j) = 0 := fun j hj => by rw [add_assoc]; exact hadj1 _ (by omega)
  have a3 : ∀ j < R * C, b.2.adj (p + C + R + j) = 0 := fun j hj => by rw [add_assoc, add_assoc]; exact hadj1 _ (by omega)
  have a4 : ∀ j < R + 1, b.2.adj (p + C + R + R * C + j) = 0 := fun j hj => by rw [add_assoc, add_assoc, add_assoc]; exact hadj1 _ (by omega)
  have w1 : ∀ k < R, (more1 R C p).exec b.2.val (p + C + R + R * C + k) = moreW R C v1 v2 M k := fun k hk => by
    rw [(more1_exec _).1 k hk, m2 k hk, moreW]
    congr 1
    refine Finset.sum_congr rfl fun j hj => ?_
    have hj := Finset.mem_range.1 hj
    rw [m1 j hj, m3 _ (by nlinarith)]
  have w2 : ∀ k < R, (more1 R C p).exec b.2.val (p + C + k) = v2 k := fun k hk => by rw [(more1_exec _).2 k hk, m2 k hk]
  have S1 : ∑ i ∈ Finset.range R, (more1 R C p).exec b.2.val (p + C + R + R * C + i) = ∑ i ∈ Finset.range R, moreW R C v1 v2 M i :=
    Finset.sum_congr rfl fun i hi => w1 i (Finset.mem_range.1 hi)
  have S2 : ∑ i ∈ Finset.range R, (more1 R C p).exec b.2.val (p + C + R + R * C + i) * (more1 R C p).exec b.2.val (p + C + i) = ∑ i ∈ Finset.range R, moreW R C v1 v2 M i * v2 i :=
    Finset.sum_congr rfl fun i hi => by rw [w1 i (Finset.mem_range.1 hi), w2 i (Finset.mem_range.1 hi)]
  obtain ⟨s2, r, h⟩ := later_autodiff (s1 := b.2) more_program (more_alive hok) hf (jv := jv) (ja := ja) ⟨fun _ h => h, fun _ h => h⟩ (fun _ => 1)
  have hA : ∀ k < N, s2.adj (p + k) = backL [more1 R C p, more2 R C p] b.2.val (fun _ => 1) b.2.adj (p + k) := fun k hk => h.adj _ (hoffA k hk)
  have hB : ∀ a, backL [more1 R C p, more2 R C p] b.2.val (fun _ => 1) b.2.adj a =
      (more1 R C p).back b.2.val (fun _ => 0) ((more2 R C p).back ((more1 R C p).exec b.2.val) (fun _ => 1) b.2.adj) a := fun a => rfl
  obtain ⟨B1, B2, B3, B4⟩ := more2_back (R := R) (C := C) (p := p) ((more1 R C p).exec b.2.val) b.2.adj
  obtain ⟨D1, D2, D3⟩ := more1_back (R := R) (C := C) (p := p) b.2.val ((more2 R C p).back ((more1 R C p).exec b.2.val) (fun _ => 1) b.2.adj)
  have G : ∀ k < R, (more2 R C p).back ((more1 R C p).exec b.2.val) (fun _ => 1) b.2.adj (p + C + R + R * C + k) = moreG R C v1 v2 M k := fun k hk => by
    rw [B1 k hk, a4 k (by omega), a4 R (by omega), S1, S2, w2 k hk, moreG]; ring
  have hread : ∀ q n, (∀ k < n, p ≤ q + k ∧ q + k < p + N) → s2.readA (some q) n = some (trunc n fun k => s2.adj (q + k)) := fun q n hq => by
    rw [St.readA, readCells, if_pos]
    · rfl
    · intro k hk
      have := (hok (q + k - p) (by have := hq k hk; omega)).2
      rw [Nat.add_sub_cancel' (hq k hk).1] at this
      rw [h.aok]
      simp [hb, bindExpr, St.allocate, this]
  have hv : r.read s2 1 = some (trunc 1 ((Expr.mkGlue (more1 R C p) (more2 R C p) : Expr ℝ).result b.2.val)) := h.value more_stable
  have hrun : autodiff b.1 (fun _ => 1) b.2 = some (s2, r) := h.run
  simp only [more, ← hN, ← hs0, ← hb, hrun, hv, hread p C (by omega), hread (p + C) R (by omega), hread (p + C + R) (R * C) (by omega), Option.bind_eq_bind, Option.bind_some, Option.some.injEq, Prod.mk.injEq]
  refine ⟨?_, map_trunc _ _ _ fun j hj => ?_, map_trunc _ _ _ fun i hi => ?_, map_trunc _ _ _ fun k hk => ?_⟩
  · rw [trunc_of_lt one_pos, more_result, S1, S2]
  · rw [hA j (by omega), hB, D1 j hj, B3 j hj, a1 j hj, zero_add]
    refine Finset.sum_congr rfl fun i hi => ?_
    have hi := Finset.mem_range.1 hi
    rw [G i hi, m3 _ (by nlinarith)]
  · have := hA (C + i) (by omega)
    rw [← add_assoc] at this
    rw [this, hB, D2 i hi, B2 i hi, G i hi, a2 i hi, a4 R (by omega), S1, w1 i hi]; ring
  · have := hA (C + R + k) (by omega)
    rw [← add_assoc, ← add_assoc] at this
    have hR : 0 < R := Nat.pos_of_ne_zero (by rintro rfl; simp at hk)
    rw [this, hB, D3 k hk, B4 k hk, a3 k hk, G _ (Nat.mod_lt _ hR), m1 _ (Nat.div_lt_of_lt_mul hk)]; ring

end

end Readme

end FastAD
