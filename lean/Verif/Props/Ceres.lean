import Verif.Props.Loop
import Verif.Proof.Ceres

/-!
# The example with ceres: C39 fails, because the adjoints of the placeholders are not reset
-/

namespace FastAD
set_option linter.unusedSimpArgs false

variable [HasInf ℝ] [LinAlg ℝ]

/-- The gradient computed by example/ceres_3layer_neural_net/src.cpp for the parameter `b3` of the network, for any parameters and any data (`n` rows): the loss is right and its
partial derivative is the sum of the slopes `-2 (y_i - pred_i)` over the rows; but the program does not reset the adjoints of its placeholders between the rows, so that slope `i`
(counted from 0) is added `(i + 1) (n - i)` times. -/
theorem C39_ceres_gradient [LawfulLinAlg] (jv ja : ℕ → ℝ) {s1 : St ℝ} (hl : Later (bindExpr Sample.Ceres.net 40 40 jv ja Sample.Ceres.s).2 s1)
    (h24 : s1.adj 24 = 0) (h34 : s1.adj 34 = 0) (h35 : s1.adj 35 = 0) (data : List (ℝ × ℝ × ℝ)) :
    ∃ s', dataLoop (bindExpr Sample.Ceres.net 40 40 jv ja Sample.Ceres.s).1 1 [] (data.map Sample.Ceres.row) 0 s1 =
        some (s', total (fun m => (m 38 - Sample.Ceres.pred m) ^ 2) s1.val (data.map Sample.Ceres.row)) ∧
      HasDerivAt (fun t => total (fun m => (m 38 - Sample.Ceres.pred m) ^ 2) (Function.update s1.val 24 t) (data.map Sample.Ceres.row))
        ((rowStores s1.val (data.map Sample.Ceres.row)).map Sample.Ceres.slope).sum (s1.val 24) ∧
      s'.adj 24 = ((rowStores s1.val (data.map Sample.Ceres.row)).zipIdx.map fun x => ((x.2 : ℝ) + 1) * (data.length - x.2) * Sample.Ceres.slope x.1).sum := by
  obtain ⟨s', h1, h2⟩ := Sample.Ceres.net_loop jv ja data s1 s1.val 0 0 hl (fun _ _ _ => rfl) (by simpa using h35)
  refine ⟨s', by rw [h1, zero_add], Sample.Ceres.total_deriv data s1.val, ?_⟩
  rw [h2, h24, h34]
  simp

/-- **C39 is false for example/ceres_3layer_neural_net/src.cpp**: with the data of the example and all parameters zero, the loss 56320 is right, but the gradient of `b3` is -6720 where
the derivative is -960. -/
theorem C39_false_for_ceres_example [LawfulLinAlg] (jv ja : ℕ → ℝ) :
    ∃ s', dataLoop (bindExpr Sample.Ceres.net 40 40 jv ja Sample.Ceres.s).1 1 []
        ([(1, 10, 32), (2, 20, 64), (3, 30, 96), (4, 40, 128), (5, 50, 160)].map Sample.Ceres.row) 0 (bindExpr Sample.Ceres.net 40 40 jv ja Sample.Ceres.s).2 = some (s', 56320) ∧
      HasDerivAt (fun t => total (fun m => (m 38 - Sample.Ceres.pred m) ^ 2) (Function.update (bindExpr Sample.Ceres.net 40 40 jv ja Sample.Ceres.s).2.val 24 t)
        ([(1, 10, 32), (2, 20, 64), (3, 30, 96), (4, 40, 128), (5, 50, 160)].map Sample.Ceres.row)) (-960) 0 ∧
      s'.adj 24 = -6720 := by
  have hv : ∀ a, a < 39 → (bindExpr Sample.Ceres.net 40 40 jv ja Sample.Ceres.s).2.val a = 0 := by
    intro a ha
    simp only [bindExpr, St.allocate, fillRange, Sample.Ceres.s]
    rw [if_neg (by omega)]
  have hA : ∀ a, a < 39 → (bindExpr Sample.Ceres.net 40 40 jv ja Sample.Ceres.s).2.adj a = 0 := by
    intro a ha
    simp only [bindExpr, St.allocate, fillRange, Sample.Ceres.s]
    rw [if_neg (by omega)]
  obtain ⟨s', h1, h2, h3⟩ := C39_ceres_gradient jv ja ⟨fun _ h => h, fun _ h => h⟩ (hA 24 (by omega)) (hA 34 (by omega)) (hA 35 (by omega))
    [(1, 10, 32), (2, 20, 64), (3, 30, 96), (4, 40, 128), (5, 50, 160)]
  have hp : ∀ m : ℕ → ℝ, (∀ a < 25, m a = 0) → Sample.Ceres.pred m = 0 := by
    intro m h
    simp [Sample.Ceres.pred, h, Finset.sum_range_succ]
  rw [hv 24 (by omega)] at h2
  generalize (bindExpr Sample.Ceres.net 40 40 jv ja Sample.Ceres.s).2 = M at *
  have h0 : ∀ a < 25, ∀ d : ℝ × ℝ × ℝ, ∀ m : ℕ → ℝ, overlay m (Sample.Ceres.row d) a = m a := by
    intro a ha d m
    simp [overlay, Sample.Ceres.row, Function.update_apply, show a ≠ 36 by omega, show a ≠ 37 by omega, show a ≠ 38 by omega]
  have h38 : ∀ d : ℝ × ℝ × ℝ, ∀ m : ℕ → ℝ, overlay m (Sample.Ceres.row d) 38 = d.2.2 := by
    intro d m
    simp [overlay, Sample.Ceres.row]
  have hz : ∀ a < 25, M.val a = 0 := fun a ha => hv a (by omega)
  have hp1 := fun d1 => hp (overlay M.val (Sample.Ceres.row d1)) fun a ha => by rw [h0 a ha, hz a ha]
  have hp2 := fun d1 d2 => hp (overlay (overlay M.val (Sample.Ceres.row d1)) (Sample.Ceres.row d2)) fun a ha => by rw [h0 a ha, h0 a ha, hz a ha]
  have hp3 := fun d1 d2 d3 => hp (overlay (overlay (overlay M.val (Sample.Ceres.row d1)) (Sample.Ceres.row d2)) (Sample.Ceres.row d3)) fun a ha => by
    rw [h0 a ha, h0 a ha, h0 a ha, hz a ha]
  have hp4 := fun d1 d2 d3 d4 => hp (overlay (overlay (overlay (overlay M.val (Sample.Ceres.row d1)) (Sample.Ceres.row d2)) (Sample.Ceres.row d3)) (Sample.Ceres.row d4)) fun a ha => by
    rw [h0 a ha, h0 a ha, h0 a ha, h0 a ha, hz a ha]
  have hp5 := fun d1 d2 d3 d4 d5 => hp (overlay (overlay (overlay (overlay (overlay M.val (Sample.Ceres.row d1)) (Sample.Ceres.row d2)) (Sample.Ceres.row d3)) (Sample.Ceres.row d4))
    (Sample.Ceres.row d5)) fun a ha => by rw [h0 a ha, h0 a ha, h0 a ha, h0 a ha, h0 a ha, hz a ha]
  refine ⟨s', ?_, ?_, ?_⟩
  · rw [h1]
    simp only [total, List.map_cons, List.map_nil, rowStores, List.sum_cons, List.sum_nil, h38, hp1, hp2, hp3, hp4, hp5]
    norm_num
  · convert! h2 using 1
    simp only [total, List.map_cons, List.map_nil, rowStores, List.sum_cons, List.sum_nil, Sample.Ceres.slope, h38, hp1, hp2, hp3, hp4, hp5]
    norm_num
  · rw [h3]
    simp only [total, List.map_cons, List.map_nil, rowStores, List.sum_cons, List.sum_nil, Sample.Ceres.slope, List.zipIdx_cons, List.zipIdx_nil, h38, hp1, hp2, hp3, hp4, hp5]
    norm_num

/-- With the adjoints of the placeholders reset in every round (`x1.reset_adj(); y1.reset_adj(); ...`) the same loop computes the gradient of the loss, for every parameter and
any data. -/
theorem C39_ceres_with_resets [LawfulLinAlg] (jv ja : ℕ → ℝ) {s1 : St ℝ} (hl : Later (bindExpr Sample.Ceres.net 40 40 jv ja Sample.Ceres.s).2 s1) (data : List (ℝ × ℝ × ℝ)) :
    ∃ s', dataLoop (bindExpr Sample.Ceres.net 40 40 jv ja Sample.Ceres.s).1 1 (List.range' 25 11) (data.map Sample.Ceres.row) 0 s1 =
        some (s', total (fun m => (m 38 - Sample.Ceres.pred m) ^ 2) s1.val (data.map Sample.Ceres.row)) ∧
      ∀ a < 25, HasDerivAt (fun t => total (fun m => (m 38 - Sample.Ceres.pred m) ^ 2) (Function.update s1.val a t) (data.map Sample.Ceres.row)) (s'.adj a - s1.adj a) (s1.val a) := by
  have hrow : ∀ row ∈ data.map Sample.Ceres.row, ∀ w ∈ row, w.1 = 36 ∨ w.1 = 37 ∨ w.1 = 38 := by
    intro row hr w hw
    obtain ⟨d, -, rfl⟩ := List.mem_map.1 hr
    simp only [Sample.Ceres.row, List.mem_cons, List.not_mem_nil, or_false] at hw
    rcases hw with rfl | rfl | rfl <;> simp
  obtain ⟨s', h1, -, h2⟩ := C39_data_loop_partial (rows := data.map Sample.Ceres.row) Sample.Ceres.net_program Sample.Ceres.net_alive Sample.Ceres.net_fresh hl Sample.Ceres.net_stable
    (by decide) 1 (resets := List.range' 25 11) (fun a ha => by simp [Sample.Ceres.s] at ha ⊢; omega)
    (fun row hr w hw => by have := hrow row hr w hw; simp [Sample.Ceres.s]; omega) 0
  simp only [Sample.Ceres.net_result, zero_add] at h1
  refine ⟨s', h1, fun a ha => ?_⟩
  have hcells : Sample.Ceres.net.adjCells = Finset.range 36 := by decide
  have hconst : Sample.Ceres.net.constCells = {36, 37, 38} := by decide
  have := h2 id Sample.Ceres.net_paired (Set.injOn_id _) (by decide) (by decide) a (by rw [hcells]; simp; omega) (by rw [hconst]; simp; omega)
    (by rw [Sample.Ceres.place_cells]; simp; omega) (by simp; omega) (fun row hr w hw => by have := hrow row hr w hw; simp; omega)
    (fun m _ => by
      simp [Sample.Ceres.net_flat, Sample.Ceres.e1, Sample.Ceres.e2, Sample.Ceres.e3, Sample.Ceres.e4, Sample.Ceres.e5, Expr.mkEq, Expr.mkPow, Expr.mkBinary, Expr.mkUnary, Expr.mkDot,
        RegSeq, Expr.RegStmt, Expr.Reg, BOp.isComparison, UOp.DomAt])
  have hone : Sample.Ceres.net.size = 1 := by decide
  simpa [hone, Sample.Ceres.net_result] using this

end FastAD
