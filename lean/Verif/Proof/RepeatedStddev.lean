import Verif.Model.RepeatedStddev
import Verif.Proof.Benchmark
import Verif.Proof.Deriv

/-!
# The benchmark of eager constants: helper lemmas
-/

namespace FastAD

namespace Benchmark

open Readme

set_option linter.unusedSimpArgs false
set_option linter.unusedSectionVars false

variable [HasInf ℝ] [LinAlg ℝ]

/-- `N` rounds of a scalar expression of which nothing is assigned -/
theorem rounds_expr {e : Expr ℝ} {s : St ℝ} {qv qa : ℕ} {jv ja : ℕ → ℝ} (hp : e.Program) (hflat : e.flat = [e]) (hplace : e.placeholder = none) (hal : e.Alive s.vok s.aok)
    (hf : Fresh s e.bindSize qv qa) (hst : e.Stable) (hsz : e.size = 1) {a : ℕ} (hv : s.vok a = true) (ha : s.aok a = true) {m0 f d : ℝ}
    (hag : ∀ m : ℕ → ℝ, m a = m0 → e.result m 0 = f ∧ ∀ A, e.back m (fun _ => 1) A a = A a + d) (N : ℕ) :
    ∀ s1, Later (bindExpr e qv qa jv ja s).2 s1 → s1.val a = m0 → ∃ s2, rounds (bindExpr e qv qa jv ja s).1 N s1 = some (List.replicate N f, s2) ∧ s2.aok = s1.aok ∧ s2.adj a = s1.adj a + N * d := by
  have off : ¬ (qa ≤ a ∧ a < qa + e.bindSize.adj) := fun h => by
    have := hf.2 (a - qa) (by omega)
    rw [Nat.add_sub_cancel' h.1, ha] at this
    cases this
  have offv : ¬ (qv ≤ a ∧ a < qv + e.bindSize.val) := fun h => by
    have := hf.1 (a - qv) (by omega)
    rw [Nat.add_sub_cancel' h.1, hv] at this
    cases this
  have hpl : a ∉ e.placeCells := by rw [Expr.placeCells, hflat]; simp [hplace]
  induction N with
  | zero => exact fun s1 _ _ => ⟨s1, rfl, rfl, by simp⟩
  | succ N ih =>
    intro s1 hl h0
    obtain ⟨s2, ref, h⟩ := later_autodiff (s1 := s1) hp hal hf (jv := jv) (ja := ja) hl (fun _ => 1)
    obtain ⟨g1, g2⟩ := hag s1.val h0
    obtain ⟨s3, k1, k2, k3⟩ := ih s2 ⟨fun a ha => by rw [h.vok]; exact hl.1 a ha, fun a ha => by rw [h.aok]; exact hl.2 a ha⟩
      (by rw [h.val a offv, prog_restore hp hpl]; exact h0)
    have hread : ref.read s2 1 = some (trunc 1 (e.result s1.val)) := by
      have := h.value hst
      rwa [hsz] at this
    refine ⟨s3, ?_, k2.trans h.aok, ?_⟩
    · simp only [rounds, h.run, hread, k1, Option.bind_eq_bind, Option.bind_some, trunc_of_lt one_pos, g1, List.replicate_succ]
    · rw [k3, h.adj a off, hflat]
      have e2 : backL [e] s1.val (fun _ => 1) s1.adj a = s1.adj a + d := g2 s1.adj
      rw [e2]
      push_cast
      ring

section
variable {n p : ℕ} {u v : ℕ → ℝ}

/-- what remains of a term when the constants are folded -/
noncomputable def foldedTerm (p : ℕ) (c1 c2 : ℕ → ℝ) (u v : ℝ) : Expr ℝ :=
  .mkBinary .sub
    (.mkBinary .mul (.const .scl c1)
      (.mkPow 2 (.mkBinary .div (.mkBinary .sub (.const .scl fun _ => v) (.mkBinary .mul (.var (sclVar p p)) (.const .scl fun _ => u))) (.const .scl fun _ => ((2 : ℕ) : ℝ)))))
    (.const .scl c2)

/-- the folded `-0.5` -/
noncomputable def foldedHalf : ℕ → ℝ := fun k => UOp.fmap .neg (trunc 1 (fun _ => 1 / ((2 : ℕ) : ℝ)) k)

/-- the folded `log(2.)` -/
noncomputable def foldedLog : ℕ → ℝ := fun k => UOp.fmap .log (trunc 1 (fun _ => ((2 : ℕ) : ℝ)) k)

theorem foldedHalf_zero : foldedHalf 0 = -(1 / 2) := by simp [foldedHalf, UOp.fmap, trunc]
theorem foldedLog_zero : foldedLog 0 = Real.log 2 := by simp [foldedLog, UOp.fmap, trunc, Fn.log]

theorem term_build (s : St ℝ) (u v : ℝ) : (stddevTerm p u v).build s = some (foldedTerm p foldedHalf foldedLog u v) := by
  rfl

theorem terms_build (s : St ℝ) (l : List (ℝ × ℝ)) : (stddevTerms p l).builds s = some (.ofList (l.map fun d => foldedTerm p foldedHalf foldedLog d.1 d.2)) := by
  induction l with
  | nil => rfl
  | cons d l ih => simp [stddevTerms, Srcs.builds, term_build, ih, Exprs.ofList]

/-- the elements of the node of the benchmark -/
noncomputable def foldedTerms (n p : ℕ) (u v : ℕ → ℝ) : Exprs ℝ := .ofList ((List.range n).map fun i => foldedTerm p foldedHalf foldedLog (u i) (v i))

theorem stddev_build (s : St ℝ) : (Src.sumRange .scl false (stddevTerms p ((List.range n).map fun i => (u i, v i)))).build s = some (.mkSumIter .scl (foldedTerms n p u v)) := by
  simp [Src.build, terms_build, buildSumRange, foldedTerms, Function.comp_def]

theorem foldedTerms_list : (foldedTerms n p u v).toList = (List.range n).map fun i => foldedTerm p foldedHalf foldedLog (u i) (v i) := toList_ofList _

theorem foldedTerm_denote (m : ℕ → ℝ) (a b : ℝ) : (foldedTerm p foldedHalf foldedLog a b).denote m 0 = -(1 / 2) * ((b - m p * a) / 2) ^ 2 - Real.log 2 := by
  simp [foldedTerm, Expr.mkUnary, Expr.mkBinary, Expr.mkPow, sclVar, mem_rng, addr, View.size, Shape.size, Shape.scl, Expr.shape, Expr.view, View.null, Shape.ofDims, Shape.isScl, Expr.binShape, Shape.maxKind, Shape.bidx, BOp.isComparison, Expr.denote, BOp.real, UOp.real, realPow, foldedHalf_zero, foldedLog_zero]

theorem foldedTerm_grad (m sd : ℕ → ℝ) (a b : ℝ) : (foldedTerm p foldedHalf foldedLog a b).grad m sd p = sd 0 * (a * (b - m p * a) / 4) := by
  simp [foldedTerm, Expr.mkUnary, Expr.mkBinary, Expr.mkPow, sclVar, mem_rng, addr, View.size, Shape.size, Shape.scl, Expr.shape, Expr.view, View.null, Shape.ofDims, Shape.isScl, Expr.binShape, Shape.maxKind, Shape.bidx, BOp.isComparison, Expr.denote, Expr.grad, BOp.real, UOp.real, BOp.bl, BOp.br, collapse, bcast, foldedHalf_zero, foldedLog_zero, powSeed_eq 2 (by decide) (by decide) (.inl (by decide))]
  ring

theorem foldedTerm_wf (a b : ℝ) : (foldedTerm p foldedHalf foldedLog a b).WF := by
  simp [foldedTerm, Expr.mkUnary, Expr.mkBinary, Expr.mkPow, sclVar, mem_rng, addr, View.size, Shape.size, Shape.scl, Expr.shape, Expr.view, View.null, Shape.ofDims, Shape.isScl, Expr.binShape, Shape.maxKind, Shape.bidx, BOp.isComparison, Expr.WF, Shape.Ok, binDimsOk, sameDims, Expr.isIf]

theorem foldedTerms_denote (m : ℕ → ℝ) : (Expr.mkSumIter .scl (foldedTerms n p u v)).denote m 0 = ∑ i ∈ Finset.range n, (-(1 / 2) * ((v i - m p * u i) / 2) ^ 2 - Real.log 2) := by
  have : ((foldedTerms n p u v).denotes m).map (fun x => x.2 0) = (List.range n).map fun i => -(1 / 2) * ((v i - m p * u i) / 2) ^ 2 - Real.log 2 := by
    rw [denotes_eq, foldedTerms_list, List.map_map, List.map_map]
    exact List.map_congr_left fun i _ => foldedTerm_denote m _ _
  simp only [Expr.mkSumIter, Expr.denote, this]
  rw [← List.sum_toFinset _ List.nodup_range, List.toFinset_range]

theorem foldedTerms_back (m A : ℕ → ℝ) : (Expr.mkSumIter .scl (foldedTerms n p u v)).back m (fun _ => 1) A p = A p + ∑ i ∈ Finset.range n, u i * (v i - m p * u i) / 4 := by
  simp only [Expr.mkSumIter, Expr.back, Expr.grad]
  rw [grads_sum m _ (fun _ => _), foldedTerms_list]
  simp only [List.length_map, List.length_range, zero_add]
  congr 1
  refine Finset.sum_congr rfl fun i hi => ?_
  have hi := Finset.mem_range.1 hi
  simp [hi, foldedTerm_grad]

theorem foldedTerms_wf : (Expr.mkSumIter .scl (foldedTerms n p u v)).WF := by
  rw [Expr.mkSumIter, iter_scl]
  refine ⟨wfs_iff.2 fun e he => ?_, ⟨rfl, rfl⟩, fun e he => ?_⟩ <;> rw [foldedTerms_list, List.mem_map] at he <;> obtain ⟨i, _, rfl⟩ := he
  · exact foldedTerm_wf _ _
  · rfl

theorem foldedTerms_alive {vok aok : ℕ → Bool} (hv : vok p = true) (ha : aok p = true) : (Expr.mkSumIter .scl (foldedTerms n p u v)).Alive vok aok := by
  constructor
  · intro w hw
    have hw : w ∈ (foldedTerms n p u v).varss := by simpa [Expr.mkSumIter, Expr.vars] using hw
    obtain ⟨e, he, hw⟩ := mem_varss.1 hw
    rw [foldedTerms_list, List.mem_map] at he
    obtain ⟨i, _, rfl⟩ := he
    obtain rfl : w = sclVar p p := by simpa [foldedTerm, Expr.mkBinary, Expr.mkPow, Expr.vars] using hw
    constructor <;> intro k hk <;> obtain rfl : k = 0 := by simpa [sclVar, View.size, Shape.size, Shape.scl] using hk
    · exact hv
    · exact ha
  · intro c hc
    have hc : c ∈ (foldedTerms n p u v).cviewss := by simpa [Expr.mkSumIter, Expr.cviews] using hc
    obtain ⟨e, he, hc⟩ := mem_cviewss.1 hc
    rw [foldedTerms_list, List.mem_map] at he
    obtain ⟨i, _, rfl⟩ := he
    simp [foldedTerm, Expr.mkBinary, Expr.mkPow, Expr.cviews] at hc

theorem stddev_run {w : ℝ} {N qv qa : ℕ} {jv ja : ℕ → ℝ} {s : St ℝ} (hf : Fresh (s.allocate ⟨1, 1⟩ p p (fun _ => w) fun _ => 0) (Expr.mkSumIter .scl (foldedTerms n p u v)).bindSize qv qa) :
    stddevBench n p u v w N qv qa jv ja s = some (List.replicate N (∑ i ∈ Finset.range n, (-(1 / 2) * ((v i - w * u i) / 2) ^ 2 - Real.log 2)), N * ∑ i ∈ Finset.range n, u i * (v i - w * u i) / 4) := by
  obtain ⟨s0, hs0⟩ : ∃ s0, s0 = s.allocate ⟨1, 1⟩ p p (fun _ => w) fun _ => 0 := ⟨_, rfl⟩
  rw [← hs0] at hf
  have hv : s0.vok p = true := by simp [hs0, St.allocate]
  have ha : s0.aok p = true := by simp [hs0, St.allocate]
  have h0 : s0.val p = w := by simp [hs0, St.allocate, fillRange]
  have h1 : s0.adj p = 0 := by simp [hs0, St.allocate, fillRange]
  have hshape : (Expr.mkSumIter .scl (foldedTerms n p u v)).shape = .scl := by rw [Expr.mkSumIter, iter_scl]; rfl
  have hflat : (Expr.mkSumIter .scl (foldedTerms n p u v)).flat = [Expr.mkSumIter .scl (foldedTerms n p u v)] := by simp [Expr.mkSumIter, Expr.flat]
  have hv1 : (bindExpr (Expr.mkSumIter .scl (foldedTerms n p u v)) qv qa jv ja s0).2.val p = w := by
    rw [← h0]
    refine if_neg fun h => ?_
    have := hf.1 (p - qv) (by have := h.1; have := h.2; omega)
    rw [Nat.add_sub_cancel' h.1, hv] at this
    cases this
  have ha1 : (bindExpr (Expr.mkSumIter .scl (foldedTerms n p u v)) qv qa jv ja s0).2.adj p = 0 := by
    rw [← h1]
    refine if_neg fun h => ?_
    have := hf.2 (p - qa) (by have := h.1; have := h.2; omega)
    rw [Nat.add_sub_cancel' h.1, ha] at this
    cases this
  obtain ⟨s2, g1, g2, g3⟩ := rounds_expr (e := Expr.mkSumIter .scl (foldedTerms n p u v)) (jv := jv) (ja := ja) ⟨⟨foldedTerms_wf, rfl, trivial⟩, by rw [hflat]; simp, by rw [hflat]; simp⟩ hflat rfl
    (foldedTerms_alive hv ha) hf (.inl (by rw [hshape]; rfl)) (by rw [Expr.size, hshape]; rfl) hv ha (m0 := w) (f := ∑ i ∈ Finset.range n, (-(1 / 2) * ((v i - w * u i) / 2) ^ 2 - Real.log 2))
    (d := ∑ i ∈ Finset.range n, u i * (v i - w * u i) / 4) (fun m hm => ⟨by rw [← hm]; exact foldedTerms_denote m, fun A => by rw [← hm]; exact foldedTerms_back m A⟩) N _ ⟨fun _ h => h, fun _ h => h⟩ hv1
  have hread : s2.readA (some p) 1 = some (trunc 1 fun k => s2.adj (p + k)) := by
    rw [St.readA, readCells, if_pos]
    · rfl
    · intro k hk
      obtain rfl : k = 0 := by omega
      rw [g2]
      show (s0.aok p || _) = true
      rw [ha, Bool.true_or]
  simp only [stddevBench, ← hs0, stddev_build, Option.bind_eq_bind, Option.bind_some, g1, hread, trunc_of_lt one_pos, add_zero, g3, ha1, zero_add]

end

theorem constants_run (c : ℝ) (k : ℕ) (s : St ℝ) : evaluations (.const .scl fun j => UOp.fmap .log (trunc 1 (fun _ => c) j)) k s = some (List.replicate k (Real.log c), s) := by
  induction k with
  | zero => rfl
  | succ k ih =>
    have h : evaluate (.const .scl fun j => UOp.fmap .log (trunc 1 (fun _ => c) j)) s = some (s, .lit (trunc 1 fun j => UOp.fmap .log (trunc 1 (fun _ => c) j))) := rfl
    simp only [evaluations, h, Option.bind_eq_bind, Option.bind_some, ih, Ref.read, List.replicate_succ]
    rfl

end Benchmark

end FastAD
