import Verif.Model.HeadTail
import Verif.Spec.HeadTail
import Verif.Proof.Example

/-!
# The test `leaf_opeq_head_tail`: helper lemmas
-/

namespace FastAD
set_option linter.unusedSimpArgs false
set_option linter.unusedSectionVars false

variable [HasInf ℝ] [LinAlg ℝ]

namespace HeadTail

open Readme Finset

variable {N c : ℕ}

theorem expr_flat : (expr N c : Expr ℝ).flat = [update N c, total N c] := rfl

theorem expr_vars : (expr N c : Expr ℝ).vars = [tail N c, scl N c, head N c, tail N c] := rfl

theorem tail_size : (tail N c).size = N := by simp [tail, vecVar, View.size, Shape.size, Shape.vec]

theorem head_size : (head N c).size = N := by simp [head, vecVar, View.size, Shape.size, Shape.vec]

theorem scl_size : (scl N c).size = 1 := rfl

theorem expr_program (hN : 1 ≤ N) : (expr N c : Expr ℝ).Program := by
  have h1 : (update N c : Expr ℝ).WFStmt := by
    refine ⟨?_, ?_, ?_, rfl, rfl, rfl, trivial⟩
    · simp [Expr.mkBinary, Expr.WF, Shape.Ok, scl, sclVar, head, vecVar, Shape.scl, Shape.vec, Expr.shape, Expr.view, View.null, Expr.binShape, Shape.maxKind, Shape.ofDims, Shape.isScl, Expr.isIf, binDimsOk, sameDims, hN]
    · simp [tail, vecVar, Shape.Ok, Shape.vec]
    · right
      simp [Expr.mkBinary, tail, scl, sclVar, head, vecVar, Shape.scl, Shape.vec, Expr.shape, Expr.view, View.null, Expr.binShape, Shape.maxKind, Shape.ofDims, Shape.isScl, hN]
  have h2 : (total N c : Expr ℝ).WFStmt := by
    simp [total, Expr.mkReduce, Expr.WFStmt, Expr.WF, Exprs.WFs, Expr.NotConst, Expr.isIf, tail, vecVar, Shape.Ok, Shape.vec, View.null, Exprs.toList, Expr.isIf, RedOp.ShapeOk]
  refine ⟨⟨h1, h2, by simp [total, Expr.mkReduce, Expr.flat], rfl⟩, ?_, by simp [expr_flat]⟩
  rw [expr_flat]
  simp [UsedAfter, total, Expr.mkReduce, Expr.placeholder]

theorem expr_mem {u : View} (h : u ∈ (expr N c : Expr ℝ).vars) {k : ℕ} (hk : k < u.size) : ∃ i < N + 2, addr u.val + k = c + i ∧ addr u.adj + k = c + i := by
  rw [expr_vars] at h
  simp only [List.mem_cons, List.not_mem_nil, or_false] at h
  rcases h with rfl | rfl | rfl | rfl
  · rw [tail_size] at hk; exact ⟨k + 1, by omega, by simp [tail, vecVar, addr]; omega, by simp [tail, vecVar, addr]; omega⟩
  · rw [scl_size] at hk; exact ⟨N + 1, by omega, by simp [scl, sclVar, addr]; omega, by simp [scl, sclVar, addr]; omega⟩
  · rw [head_size] at hk; exact ⟨k, by omega, by simp [head, vecVar, addr], by simp [head, vecVar, addr]⟩
  · rw [tail_size] at hk; exact ⟨k + 1, by omega, by simp [tail, vecVar, addr]; omega, by simp [tail, vecVar, addr]; omega⟩

theorem expr_adj (hN : 1 ≤ N) {i : ℕ} (hi : i < N + 2) : c + i ∈ (expr N c : Expr ℝ).adjCells := by
  rw [Expr.adjCells, expr_vars, List.mem_toFinset, List.mem_flatMap]
  by_cases h0 : i = 0
  · exact ⟨head N c, by simp, by simp [cells, head, vecVar, addr, View.size, Shape.size, Shape.vec]; omega⟩
  · by_cases h1 : i = N + 1
    · exact ⟨scl N c, by simp, by simp [cells, scl, sclVar, addr, View.size, Shape.size, Shape.scl]; omega⟩
    · exact ⟨tail N c, by simp, by simp [cells, tail, vecVar, addr, View.size, Shape.size, Shape.vec]; exact ⟨i - 1, by omega, by omega⟩⟩

theorem expr_result (m : ℕ → ℝ) : (expr N c : Expr ℝ).result m 0 = value N (fun i => m (c + i)) (m (c + N + 1)) := by
  have h : ∀ k < N, (update N c : Expr ℝ).exec m (c + 1 + k) = m (c + (k + 1)) + m (c + N + 1) * m (c + k) := by
    intro k hk
    simp [update, Expr.mkOpEq, Expr.exec, assign, tail_size, tail, vecVar, addr, AOp.real, Expr.mkBinary, Expr.denote, BOp.real, scl, sclVar, head, Expr.shape, Expr.view, Shape.isScl, Shape.scl, Shape.vec, View.size, Shape.size,
      View.null, Expr.binShape, Shape.maxKind, Shape.ofDims, hk]
    ring_nf
  have e : (expr N c : Expr ℝ).result m 0 = ∑ k ∈ range N, (update N c : Expr ℝ).exec m (c + 1 + k) := by
    simp [expr, total, Expr.mkGlue, Expr.mkReduce, Expr.result, Expr.denote, Exprs.denotes, RedOp.reals, RedOp.real, Expr.shape, Expr.view, tail, vecVar, Shape.size, Shape.vec, addr]
  rw [e, sum_congr rfl fun k hk => h k (mem_range.1 hk), sum_add_distrib, ← mul_sum, value]

theorem expr_reg (m : ℝ → ℕ → ℝ) (t : ℝ) : RegSeq (expr N c : Expr ℝ).flat m t := by
  rw [expr_flat]
  simp [update, total, Expr.mkOpEq, Expr.mkReduce, Expr.mkBinary, RegSeq, Expr.RegStmt, Expr.Reg, Exprs.Regs, BOp.isComparison, RedOp.RegAt, RedOp.RegsAt, Exprs.toList]

/-- the values of the cells of the variables -/
def point (N : ℕ) (x : ℕ → ℝ) (a : ℝ) (k : ℕ) : ℝ := if k = N + 1 then a else x k

theorem sum_deriv (N i s : ℕ) (x : ℕ → ℝ) (t : ℝ) : HasDerivAt (fun t => ∑ k ∈ range N, Function.update x i t (k + s)) (∑ k ∈ range N, if k + s = i then 1 else 0) t := by
  refine HasDerivAt.fun_sum fun k _ => ?_
  by_cases h : k + s = i
  · subst h; simp only [Function.update_self, if_true]; exact hasDerivAt_id t
  · simpa [h] using hasDerivAt_const t (x (k + s))

theorem value_deriv (hN : 1 ≤ N) (y : ℕ → ℝ) {i : ℕ} (hi : i < N + 2) :
    HasDerivAt (fun t => value N (Function.update y i t) (Function.update y i t (N + 1))) (if i = N + 1 then sclAdj N y else adj N (y (N + 1)) i) (y i) := by
  by_cases h : i = N + 1
  · subst h
    have e : (fun t => value N (Function.update y (N + 1) t) (Function.update y (N + 1) t (N + 1))) = fun t => (∑ k ∈ range N, y (k + 1)) + t * ∑ k ∈ range N, y k := by
      funext t
      have h1 : ∀ k ∈ range N, Function.update y (N + 1) t (k + 1) = y (k + 1) := fun k hk => by
        have := mem_range.1 hk; rw [Function.update_of_ne (by omega)]
      have h2 : ∀ k ∈ range N, Function.update y (N + 1) t k = y k := fun k hk => by
        have := mem_range.1 hk; rw [Function.update_of_ne (by omega)]
      rw [value, sum_congr rfl h1, sum_congr rfl h2, Function.update_self]
    rw [e, if_pos rfl]
    convert! ((hasDerivAt_id (y (N + 1))).mul_const (∑ k ∈ range N, y k)).const_add (∑ k ∈ range N, y (k + 1)) using 1
    simp [sclAdj]
  · have e : ∀ t, Function.update y i t (N + 1) = y (N + 1) := fun t => Function.update_of_ne (by omega) _ _
    simp only [e, value, if_neg h]
    have h0 := sum_deriv N i 0 y (y i)
    simp only [add_zero] at h0
    convert! (sum_deriv N i 1 y (y i)).add (h0.const_mul (y (N + 1))) using 1
    have s0 : (∑ k ∈ range N, if k = i then (1 : ℝ) else 0) = if i < N then 1 else 0 := by simp
    have s1 : (∑ k ∈ range N, if k + 1 = i then (1 : ℝ) else 0) = if i = 0 then 0 else 1 := by
      rcases i with _ | i
      · simp
      · simp; omega
    rw [s0, s1, adj]
    split_ifs <;> first | omega | simp

theorem run_eq [LawfulLinAlg] (hN : 1 ≤ N) {x : ℕ → ℝ} {a : ℝ} {qv qa : ℕ} {jv ja : ℕ → ℝ} {s : St ℝ}
    (hf : Fresh (s.allocate ⟨N + 2, N + 2⟩ c c (fun k => if k = N + 1 then a else x k) (fun _ => 0)) (expr N c : Expr ℝ).bindSize qv qa) :
    run N c x a qv qa jv ja s = some (value N x a, (List.range (N + 1)).map (adj N a), sclAdj N x) := by
  set s0 := s.allocate ⟨N + 2, N + 2⟩ c c (fun k => if k = N + 1 then a else x k) (fun _ => 0) with hs0
  have hv : ∀ i < N + 2, s0.vok (c + i) = true := fun i h => by simp [hs0, St.allocate]; omega
  have ha : ∀ i < N + 2, s0.aok (c + i) = true := fun i h => by simp [hs0, St.allocate]; omega
  have hal : (expr N c : Expr ℝ).Alive s0.vok s0.aok := by
    constructor
    · intro u hu
      have hu' := hu
      rw [expr_vars] at hu'
      simp only [List.mem_cons, List.not_mem_nil, or_false] at hu'
      have key : (∀ k < u.size, s0.vok (addr u.val + k) = true) ∧ ∀ k < u.size, s0.aok (addr u.adj + k) = true := by
        constructor <;> intro k hk <;> obtain ⟨i, hi, h1, h2⟩ := expr_mem hu hk
        · rw [h1]; exact hv i hi
        · rw [h2]; exact ha i hi
      rcases hu' with rfl | rfl | rfl | rfl <;> exact key
    · intro u hu
      exact absurd hu (by simp [show (expr N c : Expr ℝ).cviews = [] from rfl])
  have hcc : (expr N c : Expr ℝ).constCells = ∅ := (BlackScholes.cells_of (e := (expr N c : Expr ℝ)) _ rfl rfl).2.1
  have hpc : (expr N c : Expr ℝ).placeCells = ∅ := rfl
  have hpair : (expr N c : Expr ℝ).Paired id := by
    intro u hu k hk
    obtain ⟨i, -, h1, h2⟩ := expr_mem hu hk
    rw [h1, h2]; rfl
  set s1 := (bindExpr (expr N c) qv qa jv ja s0).2 with hs1
  obtain ⟨s2, r, h⟩ := later_autodiff (s1 := s1) (expr_program hN) hal hf ⟨fun _ h => h, fun _ h => h⟩ (fun _ => 1)
  have hb : ∀ i < N + 2, ¬ (qv ≤ c + i ∧ c + i < qv + (expr N c : Expr ℝ).bindSize.val) := fun i h => fresh_block hf.1 (hv i h)
  have hb' : ∀ i < N + 2, ¬ (qa ≤ c + i ∧ c + i < qa + (expr N c : Expr ℝ).bindSize.adj) := fun i h => fresh_block hf.2 (ha i h)
  have hval : ∀ i < N + 2, s1.val (c + i) = point N x a i := by
    intro i hi
    simp only [hs1, bindExpr, St.allocate, fillRange]; rw [if_neg (hb i hi)]
    simp [hs0, St.allocate, fillRange, hi, point]
  have hadj : ∀ i < N + 2, s1.adj (c + i) = 0 := by
    intro i hi
    simp only [hs1, bindExpr, St.allocate, fillRange]; rw [if_neg (hb' i hi)]
    simp [hs0, St.allocate, fillRange]; omega
  have haok : ∀ i < N + 2, s2.aok (c + i) = true := fun i hi => by
    rw [h.aok]; simp only [hs1, bindExpr, St.allocate, ha i hi, Bool.true_or]
  have hres : ∀ i t, (expr N c : Expr ℝ).result (Function.update s1.val (c + i) t) 0 =
      value N (Function.update (fun j => s1.val (c + j)) i t) (Function.update (fun j => s1.val (c + j)) i t (N + 1)) := by
    intro i t
    have e : ∀ j, Function.update s1.val (c + i) t (c + j) = Function.update (fun j => s1.val (c + j)) i t j := fun j => by
      by_cases hj : j = i
      · subst hj; simp
      · rw [Function.update_of_ne (by omega), Function.update_of_ne hj]
    rw [expr_result]
    simp only [e, Nat.add_assoc]
  have hx : ∀ k ∈ range N, s1.val (c + k) = x k := fun k hk => by
    have := mem_range.1 hk
    rw [hval k (by omega), point, if_neg (by omega)]
  have hx1 : ∀ k ∈ range N, s1.val (c + (k + 1)) = x (k + 1) := fun k hk => by
    have := mem_range.1 hk
    rw [hval (k + 1) (by omega), point, if_neg (by omega)]
  have hxa : s1.val (c + (N + 1)) = a := by rw [hval (N + 1) (by omega), point, if_pos rfl]
  have hD : ∀ i < N + 2, s2.adj (c + i) = if i = N + 1 then sclAdj N x else adj N a i := by
    intro i hi
    rw [h.adj (c + i) (hb' i hi)]
    have hp' := prog_partial (a := c + i) (m := s1.val) (expr_program hN) ⟨hpair, Set.injOn_id _, by rw [hcc]; simp⟩ (expr_adj hN hi) (by rw [hcc]; simp)
      (by rw [hpc]; simp) (expr_reg _ _) (fun _ => 1) s1.adj (fun b hb => by
        rw [show (expr N c : Expr ℝ).targetAdj = (cells (tail N c).adj (tail N c).size ++ []).toFinset from rfl, List.append_nil, List.mem_toFinset, tail_size] at hb
        simp only [cells, tail, vecVar, List.mem_map, List.mem_range, addr] at hb
        obtain ⟨k, hk, rfl⟩ := hb
        rw [Option.getD_some, Nat.add_assoc]
        exact hadj (1 + k) (by omega))
    simp only [show (expr N c : Expr ℝ).size = 1 from rfl, sum_range_one, one_mul, id_eq, hadj i hi, sub_zero, hres] at hp'
    rw [hp'.unique (value_deriv hN (fun j => s1.val (c + j)) hi)]
    simp only [hxa, sclAdj, sum_congr rfl hx]
  have hread : s2.readA (some c) (N + 1) = some (trunc (N + 1) fun k => s2.adj (c + k)) := by
    rw [St.readA, readCells, if_pos]
    · rfl
    · intro k hk; exact haok k (by omega)
  obtain ⟨g, hg, hg0⟩ := Example.readA_one (a := c + N + 1) (haok (N + 1) (by omega))
  have hr : r.read s2 1 = some (trunc 1 ((expr N c : Expr ℝ).result s1.val)) := h.value (.inl rfl)
  simp only [run]
  rw [← hs0]
  simp only [← hs1, h.run, hr, hread, hg, Option.bind_eq_bind, Option.bind_some, Option.some.injEq, Prod.mk.injEq]
  refine ⟨?_, List.map_congr_left fun i hi => ?_, ?_⟩
  · rw [trunc_of_lt one_pos, expr_result, value, value, sum_congr rfl hx, sum_congr rfl hx1, Nat.add_assoc, hxa]
  · have hi := List.mem_range.1 hi
    rw [trunc_of_lt hi, hD i (by omega), if_neg (by omega)]
  · rw [hg0, Nat.add_assoc, hD (N + 1) (by omega), if_pos rfl]

end HeadTail

end FastAD
