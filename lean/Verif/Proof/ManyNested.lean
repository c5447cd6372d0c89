import Verif.Model.ManyNested
import Verif.Spec.ManyNested
import Verif.Proof.Example

/-!
# The test `leaf_opeq_many_nested`: helper lemmas
-/

namespace FastAD
set_option linter.unusedSimpArgs false
set_option linter.unusedSectionVars false

variable [HasInf ℝ] [LinAlg ℝ]

namespace ManyNested

open Readme Finset

variable {n c : ℕ}

theorem expr_flat : (expr n c : Expr ℝ).flat = stmts n c ++ [total n c] := rfl

theorem expr_vars : (expr n c : Expr ℝ).vars =
    [vec n c, scl n c, vec n c, vec n c, scl n c, scl n c, scl n c, scl n c, vec n c, vec n c, vec n c, vec n c, scl n c, vec n c, scl n c, vec n c] := rfl

theorem vec_size : (vec n c).size = n := by simp [vec, vecVar, View.size, Shape.size, Shape.vec]

theorem scl_size : (scl n c).size = 1 := rfl

theorem expr_program (hn : 1 ≤ n) : (expr n c : Expr ℝ).Program := by
  have h0 : ∀ x ∈ (stmts n c : List (Expr ℝ)), x.WFStmt := by
    intro x hx
    simp only [stmts, List.mem_cons, List.not_mem_nil, or_false] at hx
    rcases hx with rfl | rfl | rfl | rfl | rfl | rfl | rfl | rfl <;>
      simp [Expr.WFStmt, Expr.mkOpEq, Expr.mkBinary, BlackScholes.num, Expr.WF, Shape.Ok, scl, sclVar, vec, vecVar, Shape.scl, Shape.vec, Expr.shape, Expr.view, View.null, Expr.binShape, Shape.maxKind, Shape.ofDims, Shape.isScl,
        Expr.isIf, binDimsOk, sameDims, Expr.NoPartialOverlap, View.size, Shape.size, addr, hn]
    all_goals exact .inr fun k hk => by omega
  have h2 : (total n c : Expr ℝ).WFStmt := by
    simp [total, Expr.mkReduce, Expr.WFStmt, Expr.WF, Exprs.WFs, Expr.NotConst, Expr.isIf, vec, vecVar, Shape.Ok, Shape.vec, View.null, Exprs.toList, Expr.isIf, RedOp.ShapeOk]
  refine ⟨?_, ?_, by simp [expr_flat]⟩
  · simp only [stmts, List.mem_cons, List.not_mem_nil, or_false, forall_eq_or_imp, forall_eq] at h0
    obtain ⟨a1, a2, a3, a4, a5, a6, a7, a8⟩ := h0
    exact ⟨⟨⟨⟨⟨⟨⟨⟨a1, a2, by simp [Expr.mkOpEq, Expr.flat], rfl⟩, a3, by simp [Expr.mkOpEq, Expr.flat], rfl⟩, a4, by simp [Expr.mkOpEq, Expr.flat], rfl⟩, a5, by simp [Expr.mkOpEq, Expr.flat], rfl⟩, a6, by simp [Expr.mkOpEq, Expr.flat], rfl⟩,
      a7, by simp [Expr.mkOpEq, Expr.flat], rfl⟩, a8, by simp [Expr.mkOpEq, Expr.flat], rfl⟩, h2, by simp [total, Expr.mkReduce, Expr.flat], rfl⟩
  · rw [expr_flat]
    have hp : ∀ y ∈ (stmts n c ++ [total n c] : List (Expr ℝ)), y.placeholder = none := by
      simp [stmts, total, Expr.mkOpEq, Expr.mkReduce, Expr.placeholder]
    refine List.pairwise_of_forall_mem_list fun x _ y hy v hv => ?_
    rw [hp y hy] at hv
    simp at hv

theorem expr_mem {u : View} (h : u ∈ (expr n c : Expr ℝ).vars) : u = vec n c ∨ u = scl n c := by
  rw [expr_vars] at h
  simp only [List.mem_cons, List.not_mem_nil, or_false] at h
  tauto

theorem expr_cell {u : View} (h : u ∈ (expr n c : Expr ℝ).vars) {k : ℕ} (hk : k < u.size) : ∃ i < n + 1, addr u.val + k = c + i ∧ addr u.adj + k = c + i := by
  rcases expr_mem h with rfl | rfl
  · rw [vec_size] at hk; exact ⟨k, by omega, rfl, rfl⟩
  · rw [scl_size] at hk; obtain rfl : k = 0 := by omega
    exact ⟨n, by omega, rfl, rfl⟩

theorem expr_adj {i : ℕ} (hi : i < n + 1) : c + i ∈ (expr n c : Expr ℝ).adjCells := by
  rw [Expr.adjCells, expr_vars, List.mem_toFinset, List.mem_flatMap]
  by_cases h1 : i = n
  · exact ⟨scl n c, by simp, by simp [cells, scl, sclVar, addr, View.size, Shape.size, Shape.scl]; omega⟩
  · exact ⟨vec n c, by simp, by simp [cells, vec, vecVar, addr, View.size, Shape.size, Shape.vec]; omega⟩

/-- a compound assignment to the vector -/
theorem exec_vec (op : AOp) (e : Expr ℝ) (m : ℕ → ℝ) : (∀ k < n, (Expr.mkOpEq op (vec n c) e).exec m (c + k) = op.real (m (c + k)) (e.denote m (if e.shape.isScl then 0 else k))) ∧
    (Expr.mkOpEq op (vec n c) e).exec m (c + n) = m (c + n) := by
  constructor
  · intro k hk
    simp [Expr.mkOpEq, Expr.exec, assign, vec_size, hk, show addr (vec n c).val = c from rfl]
  · simp [Expr.mkOpEq, Expr.exec, assign, vec_size, show addr (vec n c).val = c from rfl]

/-- a compound assignment to the scalar -/
theorem exec_scl (op : AOp) (e : Expr ℝ) (he : e.shape = .scl) (m : ℕ → ℝ) : (∀ k < n, (Expr.mkOpEq op (scl n c) e).exec m (c + k) = m (c + k)) ∧
    (Expr.mkOpEq op (scl n c) e).exec m (c + n) = op.real (m (c + n)) (e.denote m 0) := by
  constructor
  · intro k hk
    simp [Expr.mkOpEq, Expr.exec, assign, scl_size, show addr (scl n c).val = c + n from rfl]
    omega
  · simp [Expr.mkOpEq, Expr.exec, assign, scl_size, he, Shape.isScl, Shape.scl, show addr (scl n c).val = c + n from rfl]

/-- one statement after the other: `f k` and `b` are the values before -/
theorem step_vec {op : AOp} {e : Expr ℝ} {m f g : ℕ → ℝ} {b : ℝ} (h : (∀ k < n, m (c + k) = f k) ∧ m (c + n) = b) (hg : ∀ M : ℕ → ℝ, (∀ k < n, M (c + k) = f k) ∧ M (c + n) = b → ∀ k < n, op.real (f k) (e.denote M (if e.shape.isScl then 0 else k)) = g k) :
    (∀ k < n, (Expr.mkOpEq op (vec n c) e).exec m (c + k) = g k) ∧ (Expr.mkOpEq op (vec n c) e).exec m (c + n) = b := by
  obtain ⟨h1, h2⟩ := exec_vec (n := n) (c := c) op e m
  exact ⟨fun k hk => by rw [h1 k hk, h.1 k hk, hg m h k hk], h2.trans h.2⟩

theorem step_scl {op : AOp} {e : Expr ℝ} (he : e.shape = .scl) {m f : ℕ → ℝ} {b b' : ℝ} (h : (∀ k < n, m (c + k) = f k) ∧ m (c + n) = b) (hg : ∀ M : ℕ → ℝ, (∀ k < n, M (c + k) = f k) ∧ M (c + n) = b → op.real b (e.denote M 0) = b') :
    (∀ k < n, (Expr.mkOpEq op (scl n c) e).exec m (c + k) = f k) ∧ (Expr.mkOpEq op (scl n c) e).exec m (c + n) = b' := by
  obtain ⟨h1, h2⟩ := exec_scl (n := n) (c := c) op e he m
  exact ⟨fun k hk => by rw [h1 k hk, h.1 k hk], by rw [h2, h.2, hg m h]⟩

theorem den_scl (m : ℕ → ℝ) : (Expr.var (scl n c)).denote m 0 = m (c + n) := rfl

theorem den_vec (m : ℕ → ℝ) (k : ℕ) : (Expr.var (vec n c)).denote m k = m (c + k) := rfl

theorem shape_scl : (Expr.var (scl n c) : Expr ℝ).shape.isScl = true := rfl

theorem shape_vec : (Expr.var (vec n c) : Expr ℝ).shape.isScl = false := rfl

/-- the store before the last compound assignment -/
theorem exec_seven (m : ℕ → ℝ) : (∀ k < n, execL ((stmts n c).take 7) m (c + k) = 2 * m (c + k) * m (c + n) - m (c + n) - m (c + n) * (m (c + n) - 2)) ∧
    execL ((stmts n c).take 7) m (c + n) = m (c + n) * (m (c + n) - 2) := by
  simp only [stmts, List.take, execL]
  have h0 : (∀ k < n, m (c + k) = m (c + k)) ∧ m (c + n) = m (c + n) := ⟨fun _ _ => rfl, rfl⟩
  have h1 := step_vec (op := .mul) (e := .var (scl n c)) (g := fun k => m (c + k) * m (c + n)) h0 fun M hM k hk => by simp only [shape_scl, if_true, den_scl, AOp.real, hM.2]
  have h2 := step_vec (op := .add) (e := .mkBinary .sub (.var (vec n c)) (.var (scl n c))) (g := fun k => 2 * m (c + k) * m (c + n) - m (c + n)) h1 fun M hM k hk => by
    rw [show (Expr.mkBinary .sub (.var (vec n c)) (.var (scl n c)) : Expr ℝ).shape.isScl = false from rfl]
    simp only [Expr.mkBinary, Expr.denote, shape_scl, shape_vec, if_true, Bool.false_eq_true, if_false, BOp.real, AOp.real, show addr (vec n c).val = c from rfl, show addr (scl n c).val = c + n from rfl, Nat.add_zero, hM.1 k hk, hM.2]
    ring
  have h3 := step_scl (op := .mul) (e := .mkBinary .sub (.var (scl n c)) (BlackScholes.num ((2 : ℕ) : ℝ))) rfl (b' := m (c + n) * (m (c + n) - 2)) h2 (fun M hM => by
    simp only [Expr.mkBinary, BlackScholes.num, Expr.denote, shape_scl, if_true, ite_self, BOp.real, AOp.real, show addr (scl n c).val = c + n from rfl, Nat.add_zero, hM.2]
    norm_num)
  have h4 := step_scl (op := .div) (e := BlackScholes.num 1) rfl (b' := m (c + n) * (m (c + n) - 2)) h3 (fun M hM => by simp [BlackScholes.num, Expr.denote, AOp.real])
  have h5 := step_vec (op := .sub) (e := .mkBinary .mul (BlackScholes.num ((2 : ℕ) : ℝ)) (.var (vec n c))) (g := fun k => -(2 * m (c + k) * m (c + n) - m (c + n))) h4 fun M hM k hk => by
    rw [show (Expr.mkBinary .mul (BlackScholes.num ((2 : ℕ) : ℝ)) (.var (vec n c)) : Expr ℝ).shape.isScl = false from rfl]
    simp only [Expr.mkBinary, BlackScholes.num, Expr.denote, shape_vec, if_true, Bool.false_eq_true, if_false, BOp.real, AOp.real, show addr (vec n c).val = c from rfl, hM.1 k hk]
    push_cast
    ring
  have h6 := step_vec (op := .mul) (e := BlackScholes.num (-1)) (g := fun k => 2 * m (c + k) * m (c + n) - m (c + n)) h5 fun M hM k hk => by
    simp only [BlackScholes.num, Expr.denote, AOp.real]; ring
  exact step_vec (op := .sub) (e := .var (scl n c)) h6 fun M hM k hk => by simp only [shape_scl, if_true, den_scl, AOp.real, hM.2]

theorem expr_result {m : ℕ → ℝ} (ha : m (c + n) ≠ 0) (ha2 : m (c + n) ≠ 2) : (expr n c : Expr ℝ).result m 0 = value n (fun i => m (c + i)) (m (c + n)) := by
  obtain ⟨h1, h2⟩ := exec_seven (n := n) (c := c) m
  have h8 := (exec_vec (n := n) (c := c) .div (.var (scl n c)) (execL ((stmts n c).take 7) m)).1
  have e : (expr n c : Expr ℝ).result m 0 = ∑ k ∈ range n, (Expr.mkOpEq .div (vec n c) (.var (scl n c))).exec (execL ((stmts n c).take 7) m) (c + k) := by
    have : (expr n c : Expr ℝ).result m 0 = (total n c : Expr ℝ).denote ((Expr.mkOpEq .div (vec n c) (.var (scl n c))).exec (execL ((stmts n c).take 7) m)) 0 := rfl
    rw [this]
    simp [total, Expr.mkReduce, Expr.denote, Exprs.denotes, RedOp.reals, RedOp.real, Expr.shape, Expr.view, vec, vecVar, Shape.size, Shape.vec, addr]
  have ha2' : m (c + n) - 2 ≠ 0 := sub_ne_zero.2 ha2
  rw [e, sum_congr rfl fun k hk => show _ = 1 / (m (c + n) - 2) * (2 * m (c + k) - 1) - 1 by
    rw [h8 k (mem_range.1 hk), h1 k (mem_range.1 hk)]
    simp only [shape_scl, if_true, den_scl, AOp.real, h2]
    field_simp]
  rw [value, sum_sub_distrib, ← mul_sum, sum_sub_distrib, ← mul_sum]
  simp

theorem expr_reg (m : ℝ → ℕ → ℝ) (t : ℝ) (ha : m t (c + n) ≠ 0) (ha2 : m t (c + n) ≠ 2) : RegSeq (expr n c : Expr ℝ).flat m t := by
  have h2 := (exec_seven (n := n) (c := c) (m t)).2
  have hne : execL ((stmts n c).take 7) (m t) (c + n) ≠ 0 := by rw [h2]; exact mul_ne_zero ha (sub_ne_zero.2 ha2)
  rw [expr_flat]
  simp only [stmts, List.cons_append, List.nil_append, RegSeq, and_true]
  refine ⟨?_, ?_, ?_, ?_, ?_, ?_, ?_, ⟨?_, fun _ k hk => ?_⟩, ?_⟩
  case refine_9 =>
    obtain rfl : k = 0 := by
      have : k < 1 := hk
      omega
    exact hne
  all_goals simp [total, BlackScholes.num, Expr.mkOpEq, Expr.mkReduce, Expr.mkBinary, RegSeq, Expr.RegStmt, Expr.Reg, Exprs.Regs, BOp.isComparison, RedOp.RegAt, RedOp.RegsAt, Exprs.toList, Expr.denote]

theorem value_deriv_scl (y : ℕ → ℝ) {a : ℝ} (ha2 : a ≠ 2) : HasDerivAt (fun t => value n y t) (sclAdj n y a) a := by
  have h := (((hasDerivAt_id a).sub_const 2).inv (sub_ne_zero.2 ha2)).mul_const (2 * (∑ k ∈ range n, y k) - n)
  have h := h.sub_const (n : ℝ)
  convert! h using 1
  all_goals first | (funext t; simp [value]; done) | (simp [sclAdj]; done)

theorem value_deriv_vec (y : ℕ → ℝ) (a : ℝ) {i : ℕ} (hi : i < n) : HasDerivAt (fun t => value n (Function.update y i t) a) (vecAdj a) (y i) := by
  have hs : HasDerivAt (fun t => ∑ k ∈ range n, Function.update y i t k) (∑ k ∈ range n, if k = i then 1 else 0) (y i) := by
    refine HasDerivAt.fun_sum fun k _ => ?_
    by_cases h : k = i
    · subst h; simp only [Function.update_self, if_true]; exact hasDerivAt_id _
    · simpa [h] using hasDerivAt_const (y i) (y k)
  rw [Finset.sum_ite_eq' (range n) i, if_pos (mem_range.2 hi)] at hs
  convert! (((hs.const_mul 2).sub_const (n : ℝ)).const_mul (1 / (a - 2))).sub_const (n : ℝ) using 1
  rw [vecAdj]; ring

theorem run_eq [LawfulLinAlg] (hn : 1 ≤ n) {x : ℕ → ℝ} {a : ℝ} (ha0 : a ≠ 0) (ha2 : a ≠ 2) {qv qa : ℕ} {jv ja : ℕ → ℝ} {s : St ℝ}
    (hf : Fresh (s.allocate ⟨n + 1, n + 1⟩ c c (fun k => if k = n then a else x k) (fun _ => 0)) (expr n c : Expr ℝ).bindSize qv qa) :
    run n c x a qv qa jv ja s = some (value n x a, List.replicate n (vecAdj a), sclAdj n x a, (List.range n).map x, a) := by
  set s0 := s.allocate ⟨n + 1, n + 1⟩ c c (fun k => if k = n then a else x k) (fun _ => 0) with hs0
  have hv : ∀ i < n + 1, s0.vok (c + i) = true := fun i h => by simp [hs0, St.allocate]; omega
  have ha : ∀ i < n + 1, s0.aok (c + i) = true := fun i h => by simp [hs0, St.allocate]; omega
  have hal : (expr n c : Expr ℝ).Alive s0.vok s0.aok := by
    constructor
    · intro u hu
      have key : (∀ k < u.size, s0.vok (addr u.val + k) = true) ∧ ∀ k < u.size, s0.aok (addr u.adj + k) = true := by
        constructor <;> intro k hk <;> obtain ⟨i, hi, h1, h2⟩ := expr_cell hu hk
        · rw [h1]; exact hv i hi
        · rw [h2]; exact ha i hi
      rcases expr_mem hu with rfl | rfl <;> exact key
    · intro u hu
      exact absurd hu (by simp [show (expr n c : Expr ℝ).cviews = [] from rfl])
  have hcc : (expr n c : Expr ℝ).constCells = ∅ := (BlackScholes.cells_of (e := (expr n c : Expr ℝ)) _ rfl rfl).2.1
  have hpc : (expr n c : Expr ℝ).placeCells = ∅ := rfl
  have hpair : (expr n c : Expr ℝ).Paired id := by
    intro u hu k hk
    obtain ⟨i, -, h1, h2⟩ := expr_cell hu hk
    rw [h1, h2]; rfl
  set s1 := (bindExpr (expr n c) qv qa jv ja s0).2 with hs1
  obtain ⟨s2, r, h⟩ := later_autodiff (s1 := s1) (expr_program hn) hal hf ⟨fun _ h => h, fun _ h => h⟩ (fun _ => 1)
  have hb : ∀ i < n + 1, ¬ (qv ≤ c + i ∧ c + i < qv + (expr n c : Expr ℝ).bindSize.val) := fun i h => fresh_block hf.1 (hv i h)
  have hb' : ∀ i < n + 1, ¬ (qa ≤ c + i ∧ c + i < qa + (expr n c : Expr ℝ).bindSize.adj) := fun i h => fresh_block hf.2 (ha i h)
  have hval : ∀ i < n + 1, s1.val (c + i) = if i = n then a else x i := by
    intro i hi
    simp only [hs1, bindExpr, St.allocate, fillRange]; rw [if_neg (hb i hi)]
    simp [hs0, St.allocate, fillRange, hi]
  have hadj : ∀ i < n + 1, s1.adj (c + i) = 0 := by
    intro i hi
    simp only [hs1, bindExpr, St.allocate, fillRange]; rw [if_neg (hb' i hi)]
    simp [hs0, St.allocate, fillRange]; omega
  have haok : ∀ i < n + 1, s2.aok (c + i) = true := fun i hi => by
    rw [h.aok]; simp only [hs1, bindExpr, St.allocate, ha i hi, Bool.true_or]
  have hvok : ∀ i < n + 1, s2.vok (c + i) = true := fun i hi => by
    rw [h.vok]; simp only [hs1, bindExpr, St.allocate, hv i hi, Bool.true_or]
  have hx : ∀ k ∈ range n, s1.val (c + k) = x k := fun k hk => by
    have := mem_range.1 hk
    rw [hval k (by omega), if_neg (by omega)]
  have hxa : s1.val (c + n) = a := by rw [hval n (by omega), if_pos rfl]
  have hrest : ∀ i < n + 1, s2.val (c + i) = s1.val (c + i) := fun i hi => by
    rw [h.val _ (hb i hi), prog_restore (expr_program hn) (by rw [hpc]; simp)]
  have hD : ∀ i < n + 1, ∀ d, HasDerivAt (fun t => (expr n c : Expr ℝ).result (Function.update s1.val (c + i) t) 0) d (s1.val (c + i)) → s2.adj (c + i) = d := by
    intro i hi d hd
    rw [h.adj (c + i) (hb' i hi)]
    have hp' := prog_partial (a := c + i) (m := s1.val) (expr_program hn) ⟨hpair, Set.injOn_id _, by rw [hcc]; simp⟩ (expr_adj hi) (by rw [hcc]; simp)
      (by rw [hpc]; simp) (expr_reg _ _ (by simpa [hxa] using ha0) (by simpa [hxa] using ha2)) (fun _ => 1) s1.adj (fun b hb => by
        have : b ∈ (expr n c : Expr ℝ).adjCells := by
          rw [Expr.targetAdj, List.mem_toFinset, List.mem_flatMap] at hb
          obtain ⟨v, hv, hb⟩ := hb
          rw [Expr.adjCells, List.mem_toFinset, List.mem_flatMap]
          refine ⟨v, ?_, hb⟩
          rw [expr_flat] at hv
          simp [stmts, total, Expr.mkOpEq, Expr.mkReduce, Expr.target] at hv
          rw [expr_vars]
          rcases hv with rfl | rfl | rfl <;> simp
        rw [Expr.adjCells, List.mem_toFinset, List.mem_flatMap] at this
        obtain ⟨v, hv, hb⟩ := this
        simp only [cells, List.mem_map, List.mem_range] at hb
        obtain ⟨k, hk, rfl⟩ := hb
        obtain ⟨i, hi, -, h2⟩ := expr_cell hv hk
        rw [h2]
        exact hadj i hi)
    simp only [show (expr n c : Expr ℝ).size = 1 from rfl, sum_range_one, one_mul, id_eq, hadj i hi, sub_zero] at hp'
    exact hp'.unique hd
  have hDv : ∀ i < n, s2.adj (c + i) = vecAdj a := fun i hi => by
    refine hD i (by omega) _ ?_
    have e : (fun t => (expr n c : Expr ℝ).result (Function.update s1.val (c + i) t) 0) = fun t => value n (Function.update (fun j => s1.val (c + j)) i t) a := by
      funext t
      have e1 : Function.update s1.val (c + i) t (c + n) = a := by rw [Function.update_of_ne (by omega), hxa]
      rw [expr_result (by rw [e1]; exact ha0) (by rw [e1]; exact ha2), e1]
      congr 1; funext j
      by_cases hj : j = i
      · subst hj; simp
      · rw [Function.update_of_ne (by omega), Function.update_of_ne hj]
    rw [e]
    exact value_deriv_vec (fun j => s1.val (c + j)) a hi
  have hDs : s2.adj (c + n) = sclAdj n x a := by
    refine hD n (by omega) _ ?_
    rw [hxa]
    refine (value_deriv_scl (n := n) x ha2).congr_of_eventuallyEq ?_
    filter_upwards [isOpen_ne.mem_nhds ha0, isOpen_ne.mem_nhds ha2] with t h0 h2
    have e1 : Function.update s1.val (c + n) t (c + n) = t := Function.update_self _ _ _
    rw [expr_result (by rw [e1]; exact h0) (by rw [e1]; exact h2), e1, value, value]
    congr 4
    refine sum_congr rfl fun k hk => ?_
    have := mem_range.1 hk
    rw [Function.update_of_ne (by omega), hx k hk]
  have hread : s2.readA (some c) n = some (trunc n fun k => s2.adj (c + k)) := by
    rw [St.readA, readCells, if_pos]
    · rfl
    · intro k hk; exact haok k (by omega)
  have hreadv : readCells s2.val s2.vok (some c) n = some (trunc n fun k => s2.val (c + k)) := by
    rw [readCells, if_pos]
    · rfl
    · intro k hk; exact hvok k (by omega)
  have hreadw : readCells s2.val s2.vok (some (c + n)) 1 = some (trunc 1 fun k => s2.val (c + n + k)) := by
    rw [readCells, if_pos]
    · rfl
    · intro k hk; obtain rfl : k = 0 := by omega
      exact hvok n (by omega)
  obtain ⟨g, hg, hg0⟩ := Example.readA_one (a := c + n) (haok n (by omega))
  have hr : r.read s2 1 = some (trunc 1 ((expr n c : Expr ℝ).result s1.val)) := h.value (.inl rfl)
  simp only [run]
  rw [← hs0]
  simp only [← hs1, h.run, hr, hread, hreadv, hreadw, hg, Option.bind_eq_bind, Option.bind_some, Option.some.injEq, Prod.mk.injEq]
  refine ⟨?_, ?_, ?_, List.map_congr_left fun i hi => ?_, ?_⟩
  · rw [trunc_of_lt one_pos, expr_result (by rw [hxa]; exact ha0) (by rw [hxa]; exact ha2), value, value, sum_congr rfl hx, hxa]
  · rw [List.eq_replicate_iff]
    refine ⟨by simp, fun b hb => ?_⟩
    obtain ⟨i, hi, rfl⟩ := List.mem_map.1 hb
    have hi := List.mem_range.1 hi
    rw [trunc_of_lt hi, hDv i hi]
  · rw [hg0, hDs]
  · have hi := List.mem_range.1 hi
    rw [trunc_of_lt hi, hrest i (by omega), hx i (mem_range.2 hi)]
  · rw [trunc_of_lt one_pos, Nat.add_zero, hrest n (by omega), hxa]

end ManyNested

end FastAD
