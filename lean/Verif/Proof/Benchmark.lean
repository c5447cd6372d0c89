import Verif.Model.Benchmark
import Verif.Proof.Readme
import Verif.Proof.Loop

/-!
# Benchmark programs: helper lemmas
-/

namespace FastAD

namespace Benchmark

open Readme

set_option linter.unusedSimpArgs false
set_option linter.unusedSectionVars false

variable [HasInf ℝ] [LinAlg ℝ]

/-- `N` rounds of a program with two placeholders `w`, `r` whose adjoints are not reset -/
theorem rounds_two {e : Expr ℝ} {s : St ℝ} {qv qa : ℕ} {jv ja : ℕ → ℝ} (hp : e.Program) (hal : e.Alive s.vok s.aok) (hf : Fresh s e.bindSize qv qa) (hst : e.Stable) (hsz : e.size = 1)
    {w r : ℕ} {X : Set ℕ} {m0 : ℕ → ℝ} {d f : ℝ} {c : ℕ → ℝ} (hX : ∀ a ∈ X, s.vok a = true ∧ s.aok a = true ∧ a ∉ e.placeCells) (hw : s.aok w = true) (hr : s.aok r = true)
    (hag : ∀ m : ℕ → ℝ, (∀ a ∈ X, m a = m0 a) → e.result m 0 = f ∧ ∀ A, backL e.flat m (fun _ => 1) A r = A r + 1 ∧ backL e.flat m (fun _ => 1) A w = A w + (A r + 1) * d ∧
      ∀ a ∈ X, backL e.flat m (fun _ => 1) A a = A a + (A w + (A r + 1) * d) * c a) (N : ℕ) :
    ∀ s1, Later (bindExpr e qv qa jv ja s).2 s1 → (∀ a ∈ X, s1.val a = m0 a) → ∃ s2, rounds (bindExpr e qv qa jv ja s).1 N s1 = some (List.replicate N f, s2) ∧ s2.aok = s1.aok ∧
      ∀ a ∈ X, s2.adj a = s1.adj a + (N * s1.adj w + (N * (N + 1) / 2 * s1.adj r + N * (N + 1) * (N + 2) / 6) * d) * c a := by
  have off : ∀ a, s.aok a = true → ¬ (qa ≤ a ∧ a < qa + e.bindSize.adj) := fun a ha h => by
    have := hf.2 (a - qa) (by omega)
    rw [Nat.add_sub_cancel' h.1, ha] at this
    cases this
  have offv : ∀ a, s.vok a = true → ¬ (qv ≤ a ∧ a < qv + e.bindSize.val) := fun a ha h => by
    have := hf.1 (a - qv) (by omega)
    rw [Nat.add_sub_cancel' h.1, ha] at this
    cases this
  induction N with
  | zero => exact fun s1 _ _ => ⟨s1, rfl, rfl, fun a _ => by simp⟩
  | succ N ih =>
    intro s1 hl hv
    obtain ⟨s2, ref, h⟩ := later_autodiff (s1 := s1) hp hal hf (jv := jv) (ja := ja) hl (fun _ => 1)
    obtain ⟨h1, h2⟩ := hag s1.val hv
    obtain ⟨br, bw, bx⟩ := h2 s1.adj
    obtain ⟨s3, g1, g2, g3⟩ := ih s2 ⟨fun a ha => by rw [h.vok]; exact hl.1 a ha, fun a ha => by rw [h.aok]; exact hl.2 a ha⟩
      fun a ha => by rw [h.val a (offv a (hX a ha).1), prog_restore hp (hX a ha).2.2]; exact hv a ha
    have hread : ref.read s2 1 = some (trunc 1 (e.result s1.val)) := by
      have := h.value hst
      rwa [hsz] at this
    refine ⟨s3, ?_, g2.trans h.aok, fun a ha => ?_⟩
    · simp only [rounds, h.run, hread, g1, Option.bind_eq_bind, Option.bind_some, trunc_of_lt one_pos, h1, List.replicate_succ]
    · rw [g3 a ha, h.adj a (off a (hX a ha).2.1), h.adj w (off w hw), h.adj r (off r hr), br, bw, bx a ha]
      push_cast
      ring

theorem choose_three (N : ℕ) : (((N + 2).choose 3 : ℕ) : ℝ) = N * (N + 1) * (N + 2) / 6 := by
  induction N with
  | zero => simp
  | succ N ih =>
    rw [show N + 1 + 2 = (N + 2) + 1 by ring, Nat.choose_succ_succ]
    push_cast
    rw [ih, Nat.cast_choose_two]
    push_cast
    ring

section
variable {n p : ℕ}

theorem squares_list : (squares n p : Exprs ℝ).toList = (List.range n).map fun i => .mkBinary .mul (.var (sclVar (p + i) (p + i))) (.var (sclVar (p + i) (p + i))) := toList_ofList _

theorem squares_grads (m : ℕ → ℝ) (sd : ℕ → ℕ → ℝ) {i : ℕ} (hi : i < n) : (squares n p : Exprs ℝ).grads m (fun i => some (sd i)) 0 (p + i) = sd i 0 * (2 * m (p + i)) := by
  rw [grads_sum, squares_list]
  simp only [List.length_map, List.length_range, zero_add]
  rw [Finset.sum_eq_single i]
  · simp [hi, Expr.mkBinary, Expr.grad, Expr.denote, Expr.shape, Expr.view, View.null, sclVar, View.size, Shape.size, Shape.scl, Shape.isScl, Expr.binShape, Shape.maxKind, Shape.ofDims, collapse, bcast, Shape.bidx, BOp.isComparison, BOp.bl, BOp.br, addr]
    ring
  · intro j hj hne
    have hj := Finset.mem_range.1 hj
    have h : ¬ (p + j ≤ p + i ∧ p + i < p + j + 1) := by omega
    simp [hj, Expr.mkBinary, Expr.grad, sclVar, View.size, Shape.size, Shape.scl, BOp.isComparison, addr]
    split_ifs <;> first | (exfalso; omega) | simp
  · intro h; simp at h; omega

theorem squares_off (m : ℕ → ℝ) (sd : ℕ → ℕ → ℝ) {a : ℕ} (ha : p + n ≤ a) : (squares n p : Exprs ℝ).grads m (fun i => some (sd i)) 0 a = 0 := by
  rw [grads_sum, squares_list]
  simp only [List.length_map, List.length_range, zero_add]
  refine Finset.sum_eq_zero fun j hj => ?_
  have hj := Finset.mem_range.1 hj
  simp [hj, Expr.mkBinary, Expr.grad, sclVar, View.size, Shape.size, Shape.scl, BOp.isComparison, addr]
  split_ifs <;> first | (exfalso; omega) | simp

theorem squares_values (m : ℕ → ℝ) : ((squares n p : Exprs ℝ).denotes m).map (fun x => x.2 0) = (List.range n).map fun i => m (p + i) * m (p + i) := by
  rw [denotes_eq, squares_list, List.map_map, List.map_map]
  refine List.map_congr_left fun i _ => ?_
  simp [Expr.mkBinary, Expr.denote, Expr.shape, Expr.view, sclVar, Shape.scl, Shape.bidx, Shape.isScl, BOp.real, addr]

theorem out_sin (m A : ℕ → ℝ) : (outStmt .sin n p).back m (fun _ => 1) A (p + n + 1) = A (p + n + 1) + 1 ∧
    (outStmt .sin n p).back m (fun _ => 1) A (p + n) = A (p + n) + (A (p + n + 1) + 1) * (2 * m (p + n) + Real.cos (m (p + n))) ∧
    ∀ i < n, (outStmt .sin n p).back m (fun _ => 1) A (p + i) = A (p + i) := by
  refine ⟨?_, ?_, fun i hi => ?_⟩
  all_goals simp [outStmt, Expr.mkEq, Expr.mkBinary, Expr.mkUnary, Expr.mkSumIter, Expr.mkProdIter, Expr.back, Expr.grad, sclVar, mem_rng, addr, View.size, Shape.size, Shape.scl, Expr.shape, Expr.view, View.null, Shape.ofDims, Shape.isScl, Expr.binShape, Shape.maxKind, collapse, bcast, Shape.bidx, BOp.isComparison, BOp.bl, BOp.br, BOp.real, UOp.bmap, UOp.real, Expr.denote, Fn.sin, Fn.cos]
  · ring
  · split_ifs <;> first | (exfalso; omega) | simp

theorem out_cos (m A : ℕ → ℝ) : (outStmt .cos n p).back m (fun _ => 1) A (p + n + 1) = A (p + n + 1) + 1 ∧
    (outStmt .cos n p).back m (fun _ => 1) A (p + n) = A (p + n) + (A (p + n + 1) + 1) * (2 * m (p + n) - Real.sin (m (p + n))) ∧
    ∀ i < n, (outStmt .cos n p).back m (fun _ => 1) A (p + i) = A (p + i) := by
  refine ⟨?_, ?_, fun i hi => ?_⟩
  all_goals simp [outStmt, Expr.mkEq, Expr.mkBinary, Expr.mkUnary, Expr.mkSumIter, Expr.mkProdIter, Expr.back, Expr.grad, sclVar, mem_rng, addr, View.size, Shape.size, Shape.scl, Expr.shape, Expr.view, View.null, Shape.ofDims, Shape.isScl, Expr.binShape, Shape.maxKind, collapse, bcast, Shape.bidx, BOp.isComparison, BOp.bl, BOp.br, BOp.real, UOp.bmap, UOp.real, Expr.denote, Fn.sin, Fn.cos]
  · ring
  · split_ifs <;> first | (exfalso; omega) | simp

theorem sum_back (m A : ℕ → ℝ) : (sumStmt n p).back m (fun _ => 0) A (p + n + 1) = A (p + n + 1) ∧ (sumStmt n p).back m (fun _ => 0) A (p + n) = A (p + n) ∧
    ∀ i < n, (sumStmt n p).back m (fun _ => 0) A (p + i) = A (p + i) + A (p + n) * (2 * m (p + i)) := by
  refine ⟨?_, ?_, fun i hi => ?_⟩
  all_goals simp only [sumStmt, Expr.mkEq, Expr.mkSumIter, Expr.back, Expr.grad]
  · rw [squares_off m (fun _ => _) (by omega)]; simp
  · rw [squares_off m (fun _ => _) (by omega)]; simp
  · rw [squares_grads m (fun _ => _) hi]; simp [sclVar, addr, mem_rng, View.size, Shape.size, Shape.scl]

theorem prod_back (m A : ℕ → ℝ) : (prodStmt n p).back m (fun _ => 0) A (p + n + 1) = A (p + n + 1) ∧ (prodStmt n p).back m (fun _ => 0) A (p + n) = A (p + n) ∧
    ∀ i < n, (prodStmt n p).back m (fun _ => 0) A (p + i) = A (p + i) + A (p + n) * (2 * m (p + i) * ∏ j ∈ (Finset.range n).erase i, m (p + j) * m (p + j)) := by
  refine ⟨?_, ?_, fun i hi => ?_⟩
  all_goals simp only [prodStmt, Expr.mkEq, Expr.mkProdIter, Expr.back, Expr.grad]
  · rw [squares_off m (fun i k => _) (by omega)]; simp
  · rw [squares_off m (fun i k => _) (by omega)]; simp
  · rw [squares_grads m (fun i k => _) hi]
    have : prodOthers ((squares n p : Exprs ℝ).denotes m) i 0 = ∏ j ∈ (Finset.range n).erase i, m (p + j) * m (p + j) := by
      rw [prodOthers, ← List.eraseIdx_map, squares_values, List.eraseIdx_map, ← List.prod_toFinset _ (List.Nodup.eraseIdx _ List.nodup_range)]
      refine Finset.prod_congr (Finset.ext fun j => ?_) fun _ _ => rfl
      rw [List.mem_toFinset, List.mem_eraseIdx_iff_getElem, Finset.mem_erase, Finset.mem_range]
      constructor
      · rintro ⟨k, hk, hne, rfl⟩
        simp only [List.length_range] at hk
        simpa using ⟨hne, hk⟩
      · exact fun ⟨h1, h2⟩ => ⟨j, by simpa using h2, h1, by simp⟩
    rw [this]; simp [sclVar, addr, mem_rng, View.size, Shape.size, Shape.scl]; ring

theorem sum_exec (m : ℕ → ℝ) : (sumStmt n p).exec m (p + n) = ∑ j ∈ Finset.range n, m (p + j) * m (p + j) := by
  simp only [sumStmt, Expr.mkEq, Expr.mkSumIter, Expr.exec, assign, Expr.denote, squares_values]
  rw [if_pos (by simp [sclVar, addr, View.size, Shape.size, Shape.scl])]
  simp only [sclVar, addr, Option.getD_some, Nat.sub_self, squares_values]
  rw [← List.sum_toFinset _ List.nodup_range, List.toFinset_range]

theorem prod_exec (m : ℕ → ℝ) : (prodStmt n p).exec m (p + n) = ∏ j ∈ Finset.range n, m (p + j) * m (p + j) := by
  simp only [prodStmt, Expr.mkEq, Expr.mkProdIter, Expr.exec, assign, Expr.denote, squares_values]
  rw [if_pos (by simp [sclVar, addr, View.size, Shape.size, Shape.scl])]
  simp only [sclVar, addr, Option.getD_some, Nat.sub_self, squares_values]
  rw [← List.prod_toFinset _ List.nodup_range, List.toFinset_range]

theorem squares_WFs : (squares n p : Exprs ℝ).WFs := by
  refine wfs_iff.2 fun e he => ?_
  rw [squares_list, List.mem_map] at he
  obtain ⟨i, _, rfl⟩ := he
  simp [Expr.mkBinary, Expr.WF, Shape.Ok, binDimsOk, sclVar, Shape.scl, Expr.shape, Expr.view, View.null, Shape.ofDims, Shape.isScl, Expr.binShape, Shape.maxKind, sameDims, Expr.isIf]

omit [HasInf ℝ] [LinAlg ℝ] in
theorem iter_scl (es : Exprs ℝ) : Expr.iterShape .scl es = .scl := by cases es <;> rfl

theorem squares_varss {v : View} (hv : v ∈ (squares n p : Exprs ℝ).varss) : ∃ i < n, v = sclVar (p + i) (p + i) := by
  obtain ⟨e, he, hv⟩ := mem_varss.1 hv
  rw [squares_list, List.mem_map] at he
  obtain ⟨i, hi, rfl⟩ := he
  refine ⟨i, List.mem_range.1 hi, ?_⟩
  simpa [Expr.mkBinary, Expr.vars] using hv

theorem squares_cviewss : (squares n p : Exprs ℝ).cviewss = [] := by
  refine List.eq_nil_iff_forall_not_mem.2 fun c hc => ?_
  obtain ⟨e, he, hc⟩ := mem_cviewss.1 hc
  rw [squares_list, List.mem_map] at he
  obtain ⟨i, hi, rfl⟩ := he
  simp [Expr.mkBinary, Expr.cviews] at hc

theorem squares_cells (a : ℕ) (ha : p + n ≤ a) (w : View) {e : Expr ℝ} (he : e = .sumIter (squares n p) w ∨ e = .prodIter (squares n p) w) :
    a ∉ e.valCells ∧ a ∉ e.constCells ∧ a ∉ e.adjCells := by
  rcases he with rfl | rfl <;> simp [Expr.valCells, Expr.constCells, Expr.adjCells, Expr.vars, Expr.cviews, squares_cviewss, cells] <;>
    constructor <;> intro v hv k hk <;> obtain ⟨i, hi, rfl⟩ := squares_varss hv <;> simp [sclVar, addr, View.size, Shape.size, Shape.scl] at hk ⊢ <;> omega

theorem sum_program : (Expr.mkGlue (sumStmt n p) (outStmt .sin n p) : Expr ℝ).Program := by
  have h1 : (sumStmt n p : Expr ℝ).WFStmt := by
    rw [sumStmt, Expr.mkSumIter, iter_scl]
    refine ⟨⟨squares_WFs, ⟨rfl, rfl⟩, fun e he => ?_⟩, ⟨rfl, rfl⟩, rfl, rfl, trivial, fun k hk => ?_⟩
    · rw [squares_list, List.mem_map] at he
      obtain ⟨i, _, rfl⟩ := he
      rfl
    · obtain rfl : k = 0 := by simpa [sclVar, View.size, Shape.size, Shape.scl] using hk
      exact squares_cells (n := n) (p := p) (p + n) (le_refl _) (.null .scl) (.inl rfl)
  have h2 : (outStmt .sin n p : Expr ℝ).WFStmt := by
    simp [outStmt, Expr.mkEq, Expr.mkUnary, Expr.mkBinary, Expr.WFStmt, Expr.WF, Expr.isIf, Expr.Assignable, binDimsOk, sameDims, Shape.Ok, sclVar, View.size, Shape.size, Shape.scl, Expr.shape, Expr.view, View.null, Shape.ofDims, Shape.isScl, Expr.binShape, Shape.maxKind, BOp.isComparison, Expr.valCells, Expr.constCells, Expr.adjCells, Expr.vars, Exprs.varss, Expr.cviews, Exprs.cviewss, cells, addr]
  refine ⟨⟨h1, h2, by simp [outStmt, Expr.mkEq, Expr.flat], rfl⟩, ?_, by simp [Expr.mkGlue, Expr.flat, sumStmt, Expr.mkEq]⟩
  show [sumStmt n p, outStmt .sin n p].Pairwise UsedAfter
  simp only [List.pairwise_cons, List.mem_cons, List.not_mem_nil, or_false, forall_eq, List.Pairwise.nil, and_true, false_imp_iff, implies_true]
  simp only [UsedAfter, Option.mem_def, outStmt, Expr.mkEq, Expr.placeholder, Option.some.injEq, forall_eq']
  intro k hk
  obtain rfl : k = 0 := by simpa [sclVar, View.size, Shape.size, Shape.scl] using hk
  simp [sumStmt, Expr.mkSumIter, Expr.mkProdIter, Expr.mkEq, Expr.mkUnary, Expr.mkBinary, Expr.WFStmt, Expr.WF, Expr.isIf, Expr.Assignable, binDimsOk, sameDims, Shape.Ok, sclVar, View.size, Shape.size, Shape.scl, Expr.shape, Expr.view, View.null, Shape.ofDims, Shape.isScl, Expr.binShape, Shape.maxKind, BOp.isComparison, Expr.valCells, Expr.constCells, Expr.adjCells, Expr.vars, Exprs.varss, Expr.cviews, Exprs.cviewss, cells, addr, squares_cviewss]
  constructor <;> intro v hv k hk <;> obtain ⟨i, hi, rfl⟩ := squares_varss hv <;> simp [sclVar, Shape.scl] at hk ⊢ <;> omega

theorem prod_program : (Expr.mkGlue (prodStmt n p) (outStmt .cos n p) : Expr ℝ).Program := by
  have h1 : (prodStmt n p : Expr ℝ).WFStmt := by
    rw [prodStmt, Expr.mkProdIter, iter_scl]
    refine ⟨⟨squares_WFs, ⟨rfl, rfl⟩, fun e he => ⟨?_, ?_⟩⟩, ⟨rfl, rfl⟩, rfl, rfl, trivial, fun k hk => ?_⟩
    · rw [squares_list, List.mem_map] at he
      obtain ⟨i, _, rfl⟩ := he
      rfl
    · rw [squares_list, List.mem_map] at he
      obtain ⟨i, _, rfl⟩ := he
      rfl
    · obtain rfl : k = 0 := by simpa [sclVar, View.size, Shape.size, Shape.scl] using hk
      exact squares_cells (n := n) (p := p) (p + n) (le_refl _) (.null .scl) (.inr rfl)
  have h2 : (outStmt .cos n p : Expr ℝ).WFStmt := by
    simp [outStmt, Expr.mkEq, Expr.mkUnary, Expr.mkBinary, Expr.WFStmt, Expr.WF, Expr.isIf, Expr.Assignable, binDimsOk, sameDims, Shape.Ok, sclVar, View.size, Shape.size, Shape.scl, Expr.shape, Expr.view, View.null, Shape.ofDims, Shape.isScl, Expr.binShape, Shape.maxKind, BOp.isComparison, Expr.valCells, Expr.constCells, Expr.adjCells, Expr.vars, Exprs.varss, Expr.cviews, Exprs.cviewss, cells, addr]
  refine ⟨⟨h1, h2, by simp [outStmt, Expr.mkEq, Expr.flat], rfl⟩, ?_, by simp [Expr.mkGlue, Expr.flat, prodStmt, Expr.mkEq]⟩
  show [prodStmt n p, outStmt .cos n p].Pairwise UsedAfter
  simp only [List.pairwise_cons, List.mem_cons, List.not_mem_nil, or_false, forall_eq, List.Pairwise.nil, and_true, false_imp_iff, implies_true]
  simp only [UsedAfter, Option.mem_def, outStmt, Expr.mkEq, Expr.placeholder, Option.some.injEq, forall_eq']
  intro k hk
  obtain rfl : k = 0 := by simpa [sclVar, View.size, Shape.size, Shape.scl] using hk
  simp [prodStmt, Expr.mkSumIter, Expr.mkProdIter, Expr.mkEq, Expr.mkUnary, Expr.mkBinary, Expr.WFStmt, Expr.WF, Expr.isIf, Expr.Assignable, binDimsOk, sameDims, Shape.Ok, sclVar, View.size, Shape.size, Shape.scl, Expr.shape, Expr.view, View.null, Shape.ofDims, Shape.isScl, Expr.binShape, Shape.maxKind, BOp.isComparison, Expr.valCells, Expr.constCells, Expr.adjCells, Expr.vars, Exprs.varss, Expr.cviews, Exprs.cviewss, cells, addr, squares_cviewss]
  constructor <;> intro v hv k hk <;> obtain ⟨i, hi, rfl⟩ := squares_varss hv <;> simp [sclVar, Shape.scl] at hk ⊢ <;> omega

/-- the runs of both benchmarks -/
theorem bench_run {e : Expr ℝ} {x : ℕ → ℝ} {N qv qa : ℕ} {jv ja : ℕ → ℝ} {s : St ℝ} {f : ℝ} (d : Unit → ℝ) (c : ℕ → ℝ)
    (hf : Fresh (s.allocate ⟨n + 2, n + 2⟩ p p (fun k => if k < n then x k else 0) fun _ => 0) e.bindSize qv qa) (hp : e.Program)
    (hal : ∀ {vok aok : ℕ → Bool}, (∀ k < n + 2, vok (p + k) = true ∧ aok (p + k) = true) → e.Alive vok aok) (hpl : ∀ a < p + n, a ∉ e.placeCells) (hst : e.Stable) (hsz : e.size = 1)
    (hag : ∀ m : ℕ → ℝ, (∀ i < n, m (p + i) = x i) → e.result m 0 = f ∧ ∀ A, backL e.flat m (fun _ => 1) A (p + n + 1) = A (p + n + 1) + 1 ∧
      backL e.flat m (fun _ => 1) A (p + n) = A (p + n) + (A (p + n + 1) + 1) * d () ∧
      ∀ i < n, backL e.flat m (fun _ => 1) A (p + i) = A (p + i) + (A (p + n) + (A (p + n + 1) + 1) * d ()) * c i) :
    bench e n p x N qv qa jv ja s = some (List.replicate N f, (List.range n).map fun i => ((N + 2).choose 3 : ℕ) * (d () * c i)) := by
  set s0 := s.allocate ⟨n + 2, n + 2⟩ p p (fun k => if k < n then x k else 0) fun _ => 0 with hs0
  have hok : ∀ k < n + 2, s0.vok (p + k) = true ∧ s0.aok (p + k) = true := fun k hk => by simp [hs0, St.allocate, hk]
  have hval : ∀ k < n, s0.val (p + k) = x k := fun k hk => by
    have : k < n + 2 := by omega
    simp [hs0, St.allocate, fillRange, hk, this]
  have hadj : ∀ k < n + 2, s0.adj (p + k) = 0 := fun k hk => by simp [hs0, St.allocate, fillRange, hk]
  have hoff : ∀ k < n + 2, ¬ (qv ≤ p + k ∧ p + k < qv + e.bindSize.val) := fun k hk h => by
    have := hf.1 (p + k - qv) (by omega)
    rw [Nat.add_sub_cancel' h.1, (hok k hk).1] at this
    cases this
  have hoffA : ∀ k < n + 2, ¬ (qa ≤ p + k ∧ p + k < qa + e.bindSize.adj) := fun k hk h => by
    have := hf.2 (p + k - qa) (by omega)
    rw [Nat.add_sub_cancel' h.1, (hok k hk).2] at this
    cases this
  have hval1 : ∀ k < n, (bindExpr e qv qa jv ja s0).2.val (p + k) = x k := fun k hk => by
    rw [← hval k hk]; exact if_neg (hoff k (by omega))
  have hadj1 : ∀ k < n + 2, (bindExpr e qv qa jv ja s0).2.adj (p + k) = 0 := fun k hk => by
    rw [← hadj k hk]; exact if_neg (hoffA k hk)
  obtain ⟨s2, h1, h2, h3⟩ := rounds_two (w := p + n) (r := p + n + 1) (X := {a | p ≤ a ∧ a < p + n}) (m0 := fun a => x (a - p)) (d := d ()) (f := f) (c := fun a => c (a - p)) (jv := jv) (ja := ja)
    hp (hal hok) hf hst hsz
    (fun a ha => by
      have := hok (a - p) (by have := ha.1; have := ha.2; omega)
      rw [Nat.add_sub_cancel' ha.1] at this
      exact ⟨this.1, this.2, hpl a ha.2⟩) (hok n (by omega)).2 (hok (n + 1) (by omega)).2
    (fun m hm => by
      obtain ⟨g1, g2⟩ := hag m fun i hi => by rw [hm (p + i) ⟨by omega, by omega⟩, Nat.add_sub_cancel_left]
      refine ⟨g1, fun A => ⟨(g2 A).1, (g2 A).2.1, fun a ha => ?_⟩⟩
      have := (g2 A).2.2 (a - p) (by have := ha.1; have := ha.2; omega)
      rwa [Nat.add_sub_cancel' ha.1] at this) N (bindExpr e qv qa jv ja s0).2 ⟨fun _ h => h, fun _ h => h⟩
    fun a ha => by
      have := hval1 (a - p) (by have := ha.1; have := ha.2; omega)
      rwa [Nat.add_sub_cancel' ha.1] at this
  have hread : s2.readA (some p) n = some (trunc n fun k => s2.adj (p + k)) := by
    rw [St.readA, readCells, if_pos]
    · rfl
    · intro k hk
      rw [h2]
      simp [bindExpr, St.allocate, (hok k (by omega)).2]
  simp only [bench, ← hs0, h1, hread, Option.bind_eq_bind, Option.bind_some, Option.some.injEq, Prod.mk.injEq, true_and]
  refine map_trunc _ _ _ fun i hi => ?_
  rw [h3 (p + i) ⟨by omega, by omega⟩, hadj1 i (by omega), hadj1 n (by omega), show p + n + 1 = p + (n + 1) by ring, hadj1 (n + 1) (by omega), choose_three, Nat.add_sub_cancel_left]
  ring

theorem sum_place : ∀ a < p + n, a ∉ (Expr.mkGlue (sumStmt n p) (outStmt .sin n p) : Expr ℝ).placeCells := by
  intro a ha
  rw [Expr.placeCells]
  show a ∉ (([sumStmt n p, outStmt .sin n p].filterMap Expr.placeholder).flatMap fun v => cells v.val v.size).toFinset
  simp [sumStmt, outStmt, Expr.mkEq, Expr.placeholder, cells, addr, sclVar, View.size, Shape.size, Shape.scl]
  omega

theorem sum_result (m : ℕ → ℝ) : (Expr.mkGlue (sumStmt n p) (outStmt .sin n p) : Expr ℝ).result m 0 =
    (sumStmt n p).exec m (p + n) * (sumStmt n p).exec m (p + n) + Real.sin ((sumStmt n p).exec m (p + n)) := by
  simp [outStmt, Expr.mkGlue, Expr.result, Expr.mkEq, Expr.mkBinary, Expr.mkUnary, sclVar, addr, View.size, Shape.size, Shape.scl, Expr.shape, Expr.view, View.null, Shape.ofDims, Shape.isScl, Expr.binShape, Shape.maxKind, Shape.bidx, BOp.real, UOp.real, Expr.denote]

theorem sum_alive {vok aok : ℕ → Bool} (h : ∀ k < n + 2, vok (p + k) = true ∧ aok (p + k) = true) : (Expr.mkGlue (sumStmt n p) (outStmt .sin n p) : Expr ℝ).Alive vok aok := by
  constructor
  · intro u hu
    have hu : ∃ k < n + 2, u = sclVar (p + k) (p + k) := by
      simp only [sumStmt, outStmt, Expr.mkGlue, Expr.mkEq, Expr.mkSumIter, Expr.mkProdIter, Expr.mkBinary, Expr.mkUnary, Expr.vars, List.mem_append, List.mem_cons, List.not_mem_nil, or_false] at hu
      have hu' : u ∈ (squares n p : Exprs ℝ).varss ∨ u = sclVar (p + n) (p + n) ∨ u = sclVar (p + n + 1) (p + n + 1) := by tauto
      rcases hu' with hu | hu | hu
      · obtain ⟨i, hi, hu⟩ := squares_varss hu
        exact ⟨i, by omega, hu⟩
      · exact ⟨n, by omega, hu⟩
      · exact ⟨n + 1, by omega, hu⟩
    obtain ⟨i, hi, rfl⟩ := hu
    constructor <;> intro k hk <;> obtain rfl : k = 0 := by simpa [sclVar, View.size, Shape.size, Shape.scl] using hk
    · exact (h i hi).1
    · exact (h i hi).2
  · intro c hc
    simp [sumStmt, outStmt, Expr.mkGlue, Expr.mkEq, Expr.mkSumIter, Expr.mkProdIter, Expr.mkBinary, Expr.mkUnary, Expr.cviews, squares_cviewss] at hc

theorem sum_run {x : ℕ → ℝ} {N qv qa : ℕ} {jv ja : ℕ → ℝ} {s : St ℝ} (S : ℝ) (hS : S = ∑ j ∈ Finset.range n, x j * x j)
    (hf : Fresh (s.allocate ⟨n + 2, n + 2⟩ p p (fun k => if k < n then x k else 0) fun _ => 0) (Expr.mkGlue (sumStmt n p) (outStmt .sin n p) : Expr ℝ).bindSize qv qa) :
    sumBench n p x N qv qa jv ja s = some (List.replicate N (S * S + Real.sin S), (List.range n).map fun i => ((N + 2).choose 3 : ℕ) * ((2 * S + Real.cos S) * (2 * x i))) :=
  bench_run (fun _ => (2 * S + Real.cos S)) (fun i => 2 * x i) hf sum_program sum_alive sum_place (by
    left; rfl) rfl fun m hm => by
    have e0 : (sumStmt n p).exec m (p + n) = S := by
      rw [sum_exec, hS]
      exact Finset.sum_congr rfl fun j hj => by rw [hm j (Finset.mem_range.1 hj)]
    refine ⟨by rw [sum_result, e0], fun A => ?_⟩
    have hB : ∀ a, backL (Expr.mkGlue (sumStmt n p) (outStmt .sin n p) : Expr ℝ).flat m (fun _ => 1) A a =
      (sumStmt n p).back m (fun _ => 0) ((outStmt .sin n p).back ((sumStmt n p).exec m) (fun _ => 1) A) a := fun a => rfl
    obtain ⟨D1, D2, D3⟩ := sum_back (n := n) (p := p) m ((outStmt .sin n p).back ((sumStmt n p).exec m) (fun _ => 1) A)
    obtain ⟨B1, B2, B3⟩ := out_sin (n := n) (p := p) ((sumStmt n p).exec m) A
    refine ⟨by rw [hB, D1, B1], by rw [hB, D2, B2, e0], fun i hi => ?_⟩
    rw [hB, D3 i hi, B2, B3 i hi, e0, hm i hi]

theorem prod_place : ∀ a < p + n, a ∉ (Expr.mkGlue (prodStmt n p) (outStmt .cos n p) : Expr ℝ).placeCells := by
  intro a ha
  rw [Expr.placeCells]
  show a ∉ (([prodStmt n p, outStmt .cos n p].filterMap Expr.placeholder).flatMap fun v => cells v.val v.size).toFinset
  simp [prodStmt, outStmt, Expr.mkEq, Expr.placeholder, cells, addr, sclVar, View.size, Shape.size, Shape.scl]
  omega

theorem prod_result (m : ℕ → ℝ) : (Expr.mkGlue (prodStmt n p) (outStmt .cos n p) : Expr ℝ).result m 0 =
    (prodStmt n p).exec m (p + n) * (prodStmt n p).exec m (p + n) + Real.cos ((prodStmt n p).exec m (p + n)) := by
  simp [outStmt, Expr.mkGlue, Expr.result, Expr.mkEq, Expr.mkBinary, Expr.mkUnary, sclVar, addr, View.size, Shape.size, Shape.scl, Expr.shape, Expr.view, View.null, Shape.ofDims, Shape.isScl, Expr.binShape, Shape.maxKind, Shape.bidx, BOp.real, UOp.real, Expr.denote]

theorem prod_alive {vok aok : ℕ → Bool} (h : ∀ k < n + 2, vok (p + k) = true ∧ aok (p + k) = true) : (Expr.mkGlue (prodStmt n p) (outStmt .cos n p) : Expr ℝ).Alive vok aok := by
  constructor
  · intro u hu
    have hu : ∃ k < n + 2, u = sclVar (p + k) (p + k) := by
      simp only [prodStmt, outStmt, Expr.mkGlue, Expr.mkEq, Expr.mkSumIter, Expr.mkProdIter, Expr.mkBinary, Expr.mkUnary, Expr.vars, List.mem_append, List.mem_cons, List.not_mem_nil, or_false] at hu
      have hu' : u ∈ (squares n p : Exprs ℝ).varss ∨ u = sclVar (p + n) (p + n) ∨ u = sclVar (p + n + 1) (p + n + 1) := by tauto
      rcases hu' with hu | hu | hu
      · obtain ⟨i, hi, hu⟩ := squares_varss hu
        exact ⟨i, by omega, hu⟩
      · exact ⟨n, by omega, hu⟩
      · exact ⟨n + 1, by omega, hu⟩
    obtain ⟨i, hi, rfl⟩ := hu
    constructor <;> intro k hk <;> obtain rfl : k = 0 := by simpa [sclVar, View.size, Shape.size, Shape.scl] using hk
    · exact (h i hi).1
    · exact (h i hi).2
  · intro c hc
    simp [prodStmt, outStmt, Expr.mkGlue, Expr.mkEq, Expr.mkSumIter, Expr.mkProdIter, Expr.mkBinary, Expr.mkUnary, Expr.cviews, squares_cviewss] at hc

theorem prod_run {x : ℕ → ℝ} {N qv qa : ℕ} {jv ja : ℕ → ℝ} {s : St ℝ} (S : ℝ) (hS : S = ∏ j ∈ Finset.range n, x j * x j)
    (hf : Fresh (s.allocate ⟨n + 2, n + 2⟩ p p (fun k => if k < n then x k else 0) fun _ => 0) (Expr.mkGlue (prodStmt n p) (outStmt .cos n p) : Expr ℝ).bindSize qv qa) :
    prodBench n p x N qv qa jv ja s = some (List.replicate N (S * S + Real.cos S), (List.range n).map fun i => ((N + 2).choose 3 : ℕ) * ((2 * S - Real.sin S) * (2 * x i * ∏ j ∈ (Finset.range n).erase i, x j * x j))) :=
  bench_run (fun _ => (2 * S - Real.sin S)) (fun i => 2 * x i * ∏ j ∈ (Finset.range n).erase i, x j * x j) hf prod_program prod_alive prod_place (by
    left; rfl) rfl fun m hm => by
    have e0 : (prodStmt n p).exec m (p + n) = S := by
      rw [prod_exec, hS]
      exact Finset.prod_congr rfl fun j hj => by rw [hm j (Finset.mem_range.1 hj)]
    refine ⟨by rw [prod_result, e0], fun A => ?_⟩
    have hB : ∀ a, backL (Expr.mkGlue (prodStmt n p) (outStmt .cos n p) : Expr ℝ).flat m (fun _ => 1) A a =
      (prodStmt n p).back m (fun _ => 0) ((outStmt .cos n p).back ((prodStmt n p).exec m) (fun _ => 1) A) a := fun a => rfl
    obtain ⟨D1, D2, D3⟩ := prod_back (n := n) (p := p) m ((outStmt .cos n p).back ((prodStmt n p).exec m) (fun _ => 1) A)
    obtain ⟨B1, B2, B3⟩ := out_cos (n := n) (p := p) ((prodStmt n p).exec m) A
    refine ⟨by rw [hB, D1, B1], by rw [hB, D2, B2, e0], fun i hi => ?_⟩
    rw [hB, D3 i hi, B2, B3 i hi, e0, hm i hi]
    congr 3
    exact Finset.prod_congr rfl fun j hj => by rw [hm j (Finset.mem_range.1 (Finset.mem_of_mem_erase hj))]

end

end Benchmark

end FastAD
