import Verif.Props.Rate
import Verif.Props.Joint
import Verif.Proof.JointInside

/-!
# Rounding errors of statistical models

Property C57 for sums of log-densities.
-/

open Filter Topology Asymptotics

namespace FastAD

section
variable [HasInf ℝ] [LinAlg ℝ]

variable [∀ r, HasInf (Rounded r)] [∀ r, LinAlg (Rounded r)]

/-- **C57, statistical models.** A model is a sum of log-densities: normal with scalar or vector standard deviations, Cauchy of a scalar, uniform.  If at `m` the parameters are valid, the observations possible, and the operands evaluated inside
their domains, there are constants `C`, `M` and `δ > 0` such that in every arithmetic whose operations are exact up to an error of `ε (1 + |x|)`, `ε < δ`, for results in the range `[-M, M]`, with variables and constants given up to an error of `B ε`: the returned value differs
from the log-density of the model by at most `C ε`, and the adjoints, if they are 0 before, differ from the partial derivatives of the log-density by at most `C ε`. -/
theorem C57_model_error_bound [LawfulLinAlg] {t : Term} {ts : List Term} {m : ℕ → ℝ}
    (h : ∀ u ∈ t :: ts, u.Ok ∧ u.op.elementary = true ∧ u.args.Insides realDoms m ∧ u.op.valid u.rows (u.at m)) (B : ℝ) :
    ∃ (D : ℕ → ℝ) (C δ M : ℝ), 0 < δ ∧
      (∀ π, (joint t ts).Paired π → Set.InjOn π (joint t ts).adjCells → (∀ a ∈ (joint t ts).adjCells, π a ∉ (joint t ts).constCells) → ∀ a ∈ (joint t ts).adjCells,
        HasDerivAt (fun x => logJoint (t :: ts) (Function.update m (π a) x)) (D a) (m (π a))) ∧
      ∀ (ε : ℝ) (rnd : ℝ → ℝ), 0 < ε → ε < δ → (∀ x, |x| ≤ M → |rnd x - x| ≤ ε * (1 + |x|)) →
      ∀ (s S : St (Rounded rnd)) (qv qa : ℕ) (jv ja : ℕ → Rounded rnd), (joint t ts).Alive s.vok s.aok → Fresh s (joint t ts).bindSize qv qa → Later (bindExpr ((joint t ts).map .lit) qv qa jv ja s).2 S →
        (∀ c ∈ (joint t ts).valCells ∪ (joint t ts).constCells, |(S.val c).v - m c| ≤ B * ε) → (∀ a ∈ (joint t ts).adjCells, S.adj a = 0) →
        ∃ S' r y, autodiff (bindExpr ((joint t ts).map .lit) qv qa jv ja s).1 (fun _ => 1) S = some (S', r) ∧ r.read S' 1 = some y ∧
          |(y 0).v - logJoint (t :: ts) m| ≤ C * ε ∧ ∀ a ∈ (joint t ts).adjCells, |(S'.adj a).v - D a| ≤ C * ε := by
  have hok : ∀ u ∈ t :: ts, u.Ok := fun u hu => (h u hu).1
  have hden : ∀ m k, (joint t ts).denote m k = logJoint (t :: ts) m := fun m k => joint_denote hok (fun u hu => Term.elementary_adm (h u hu).2.1 _ _) k
  have hsz : (joint t ts).size = 1 := by rw [Expr.size, joint_shape]; rfl
  obtain ⟨D, C, δ, M, h0, hD, hb⟩ := C57_error_bound (e := joint t ts) (m := m) (d := fun _ => 0) (σ := fun _ => 1) (joint_wf hok) (joint_inside h) (max B 0)
  refine ⟨D, C, δ, M, h0, fun π hπ hinj hc a ha => ?_, fun ε rnd hε hlt hr s S qv qa jv ja hal hf hl hv ha => ?_⟩
  · simpa only [hsz, Finset.range_one, Finset.sum_singleton, one_mul, hden] using hD π hπ hinj hc a ha
  · have h0B : 0 ≤ max B 0 * ε := mul_nonneg (le_max_right _ _) hε.le
    obtain ⟨S', r, y, h1, h2, h3, h4⟩ := hb ε rnd hε hlt hr s S qv qa jv ja (fun _ => 1) hal hf hl
      (fun c hc => (hv c hc).trans (mul_le_mul_of_nonneg_right (le_max_left _ _) hε.le))
      (fun a ha' => by rw [ha a ha', show (0 : Rounded rnd).v = 0 from rfl, sub_zero, abs_zero]; exact h0B)
      (fun k _ => by rw [show (1 : Rounded rnd).v = 1 from rfl, sub_self, abs_zero]; exact h0B)
    rw [hsz] at h2 h3
    exact ⟨S', r, y, h1, h2, by simpa only [hden] using h3 0 Nat.one_pos, fun a ha => by simpa using h4 a ha⟩

end

namespace Sample.Regression

variable [HasInf ℝ] [LinAlg ℝ]

theorem model_inside {m : ℕ → ℝ} (h0 : 0 < m 2) (h1 : m 2 < 10) :
    ∀ u ∈ [likelihood, prior, hyper], u.Ok ∧ u.op.elementary = true ∧ u.args.Insides realDoms m ∧ u.op.valid u.rows (u.at m) := by
  intro u hu
  refine ⟨model_ok u hu, ?_, ?_, (model_smooth (fun _ : ℝ => m) 0 h0 h1 u hu).valid⟩ <;>
    simp only [List.mem_cons, List.not_mem_nil, or_false] at hu <;> rcases hu with rfl | rfl | rfl <;>
    simp [likelihood, prior, hyper, StatOp.elementary, Exprs.ofList, Exprs.Insides, Expr.Inside, Expr.mkDot]

/-- the memory in rounded arithmetic -/
noncomputable def t (p : ℕ) : St (Rounded (grid p)) := ⟨fun a => ⟨grid p (Sample.s.val a)⟩, fun _ => 0, Sample.s.vok, Sample.s.aok⟩

/-- Bayesian linear regression at w = (1, 2), sigma = 3, computed with `p` binary digits after the point, every result rounded down: from some `p` on the errors of the log-posterior and of its derivative by sigma are at most `C 2^-p`. -/
example [LawfulLinAlg] [∀ r, HasInf (Rounded r)] [∀ r, LinAlg (Rounded r)] : ∃ D C : ℝ, ∃ N : ℕ,
    HasDerivAt (fun x => logJoint [likelihood, prior, hyper] (Function.update Sample.s.val 2 x)) D (Sample.s.val 2) ∧
    ∀ p ≥ N, ∃ S' r y, autodiff (bindExpr ((joint likelihood [prior, hyper]).map .lit) 10 10 0 0 (t p)).1 (fun _ => 1) (bindExpr ((joint likelihood [prior, hyper]).map .lit) 10 10 0 0 (t p)).2 = some (S', r) ∧
      r.read S' 1 = some y ∧ |(y 0).v - logJoint [likelihood, prior, hyper] Sample.s.val| ≤ C * (1 / 2) ^ p ∧ |(S'.adj 2).v - D| ≤ C * (1 / 2) ^ p := by
  have hcell : ∀ c ∈ (joint likelihood [prior, hyper]).valCells ∪ (joint likelihood [prior, hyper]).constCells, c < 3 := by decide
  obtain ⟨D, C, δ, M, h0, hD, h⟩ := C57_model_error_bound (model_inside (m := Sample.s.val) (by simp [Sample.s]; norm_num) (by simp [Sample.s]; norm_num)) 4
  obtain ⟨N, hN⟩ := eventually_atTop.1 (half_pow_tendsto.eventually_lt_const h0)
  refine ⟨D 2, C, N, hD id model_paired (Set.injOn_id _) (fun a _ => by simp [model_constCells]) 2 (by simp [model_adjCells]), fun p hp => ?_⟩
  have hpos : (0 : ℝ) < (1 / 2) ^ p := by positivity
  obtain ⟨S', r, y, h1, h2, h3, h4⟩ := h ((1 / 2) ^ p) (grid p) hpos (hN p hp) (fun x _ => grid_err p x) (t p) (bindExpr ((joint likelihood [prior, hyper]).map .lit) 10 10 0 0 (t p)).2 10 10 0 0
    model_alive (by constructor <;> intro k _ <;> simp [t, Sample.s] <;> omega) ⟨fun _ h => h, fun _ h => h⟩
    (fun c hc => by
      have hc3 := hcell c hc
      have e1 : (bindExpr ((joint likelihood [prior, hyper]).map .lit) 10 10 0 0 (t p)).2.val c = ⟨grid p (Sample.s.val c)⟩ := if_neg (by omega)
      rw [e1]
      have e2 : 1 + |Sample.s.val c| ≤ 4 := by
        have : Sample.s.val c = (c : ℝ) + 1 := rfl
        have h3 : (c : ℝ) ≤ 2 := by exact_mod_cast (by omega : c ≤ 2)
        rw [this, abs_of_nonneg (by positivity)]
        linarith
      refine (grid_err p _).trans ?_
      nlinarith)
    (fun a ha => if_neg (by rw [model_adjCells] at ha; fin_cases ha <;> simp))
  exact ⟨S', r, y, h1, h2, h3, h4 2 (by simp [model_adjCells])⟩

end Sample.Regression

end FastAD
