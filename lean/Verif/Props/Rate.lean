import Verif.Proof.Rate
import Verif.Props.ConvergeProg

/-!
# Rounding errors

Property C57: the errors of values and adjoints are at most a multiple of the unit of rounding.
-/

open Filter Topology Asymptotics

namespace FastAD

section
variable [HasInf ℝ] [LinAlg ℝ] [∀ r, HasInf (Rounded r)] [∀ r, LinAlg (Rounded r)]

/-- a run of an expression in rounded arithmetic: the rounding, its unit and its range, the memory when the expression is bound and when it is differentiated, the buffers, and the seed -/
private structure Run where
  ε : ℝ
  M : ℝ
  rnd : ℝ → ℝ
  s : St (Rounded rnd)
  S : St (Rounded rnd)
  qv : ℕ
  qa : ℕ
  jv : ℕ → Rounded rnd
  ja : ℕ → Rounded rnd
  seed : ℕ → Rounded rnd

/-- **C57.** Let a side-effect-free expression be evaluated inside the domains of all operations at `m` (`Inside`).  There are constants `C`, `M` and `δ > 0` such that in every arithmetic whose operations are exact up to an error of
`ε (1 + |x|)`, `ε < δ`, for results in the range `[-M, M]`, with variables, constants, adjoints and seeds given up to an error of `B ε`: `autodiff` is defined, whatever happened before; the returned values differ from the exact values by at most `C ε`, and every adjoint
differs from its initial value plus the exact partial derivative by at most `C ε`. -/
theorem C57_error_bound [LawfulLinAlg] {e : Expr ℝ} {m d σ : ℕ → ℝ} (hwf : e.WF) (hin : e.Inside realDoms m) (B : ℝ) :
    ∃ (D : ℕ → ℝ) (C δ M : ℝ), 0 < δ ∧
      (∀ π, e.Paired π → Set.InjOn π e.adjCells → (∀ a ∈ e.adjCells, π a ∉ e.constCells) → ∀ a ∈ e.adjCells,
        HasDerivAt (fun t => ∑ k ∈ Finset.range e.size, σ k * e.denote (Function.update m (π a) t) k) (D a) (m (π a))) ∧
      ∀ (ε : ℝ) (rnd : ℝ → ℝ), 0 < ε → ε < δ → (∀ x, |x| ≤ M → |rnd x - x| ≤ ε * (1 + |x|)) →
      ∀ (s S : St (Rounded rnd)) (qv qa : ℕ) (jv ja seed : ℕ → Rounded rnd), e.Alive s.vok s.aok → Fresh s e.bindSize qv qa → Later (bindExpr (e.map .lit) qv qa jv ja s).2 S →
        (∀ c ∈ e.valCells ∪ e.constCells, |(S.val c).v - m c| ≤ B * ε) → (∀ a ∈ e.adjCells, |(S.adj a).v - d a| ≤ B * ε) → (∀ k < e.size, |(seed k).v - σ k| ≤ B * ε) →
        ∃ S' r y, autodiff (bindExpr (e.map .lit) qv qa jv ja s).1 seed S = some (S', r) ∧ r.read S' e.size = some y ∧
          (∀ k < e.size, |(y k).v - e.denote m k| ≤ C * ε) ∧ ∀ a ∈ e.adjCells, |(S'.adj a).v - (d a + D a)| ≤ C * ε := by
  let I := { i : Run // 0 < i.ε ∧ (∀ x, |x| ≤ i.M → |i.rnd x - x| ≤ i.ε * (1 + |x|)) ∧ e.Alive i.s.vok i.s.aok ∧ Fresh i.s e.bindSize i.qv i.qa ∧
    Later (bindExpr (e.map .lit) i.qv i.qa i.jv i.ja i.s).2 i.S ∧ (∀ c ∈ e.valCells ∪ e.constCells, |(i.S.val c).v - m c| ≤ B * i.ε) ∧
    (∀ a ∈ e.adjCells, |(i.S.adj a).v - d a| ≤ B * i.ε) ∧ ∀ k < e.size, |(i.seed k).v - σ k| ≤ B * i.ε }
  let ε : I → ℝ := fun i => i.1.ε
  have hpos : ∀ i, 0 < ε i := fun i => i.2.1
  let M : I → ℝ := fun i => i.1.M
  have hε : Tendsto ε (comap ε (𝓝 0) ⊓ comap M atTop) (𝓝 0) := tendsto_comap.mono_left inf_le_left
  have hB : ∀ {f : I → ℝ}, (∀ i, |f i| ≤ B * ε i) → f =O[comap ε (𝓝 0) ⊓ comap M atTop] ε := fun h => IsBigO.of_bound B (.of_forall fun i => by
    rw [Real.norm_eq_abs, Real.norm_eq_abs, abs_of_pos (hpos i)]; exact h i)
  have hr : ∀ K, ∀ᶠ i : I in comap ε (𝓝 0) ⊓ comap M atTop, ∀ x, |x| ≤ K → |i.1.rnd x - x| ≤ ε i * (1 + |x|) := fun K => by
    have hM : Tendsto M (comap ε (𝓝 0) ⊓ comap M atTop) atTop := tendsto_comap.mono_left inf_le_right
    filter_upwards [hM.eventually_ge_atTop K] with i hi x hx
    exact i.2.2.1 x (hx.trans hi)
  refine ⟨e.grad m σ, ?_⟩
  have hD : ∀ π, e.Paired π → Set.InjOn π e.adjCells → (∀ a ∈ e.adjCells, π a ∉ e.constCells) → ∀ a ∈ e.adjCells,
      HasDerivAt (fun t => ∑ k ∈ Finset.range e.size, σ k * e.denote (Function.update m (π a) t) k) (e.grad m σ a) (m (π a)) := by
    intro π hπ hinj hc a ha
    refine grad_partial hwf hπ hinj hc ha (inside_reg (fun c => ?_) hwf (by rwa [Function.update_eq_self])) σ
    by_cases hca : c = π a
    · subst hca; simp only [Function.update_self]; exact tendsto_id
    · simp only [Function.update_of_ne hca]; exact tendsto_const_nhds
  by_cases hne : Nonempty I
  · obtain ⟨S', r, y, h1, h2, h3⟩ := approx_autodiff (rounded_accurate hr hε) near_congr near_mix (rd := fun i => Rounded.lit) (fun c => near_op hr hε (f := fun x => x) differentiableAt_id (near_exact c)) hwf hin
      (s := fun i => i.1.s) (S := fun i => i.1.S) (d := d) (σ := σ) (seed := fun i => i.1.seed) (fun i => i.2.2.2.1) (fun i => i.2.2.2.2.1) (fun i => i.2.2.2.2.2.1) (fun c hc => hB fun i => i.2.2.2.2.2.2.1 c hc)
      (fun a ha => hB fun i => i.2.2.2.2.2.2.2.1 a ha) fun k hk => hB fun i => i.2.2.2.2.2.2.2.2 k hk
    obtain ⟨C1, δ1, K1, p1, b1⟩ := near_bound (M := M) hpos (Finset.range e.size) (f := fun k i => (y i k).v - e.denote m k) fun k hk => h2 k (Finset.mem_range.1 hk)
    obtain ⟨C2, δ2, K2, p2, b2⟩ := near_bound (M := M) hpos e.adjCells (f := fun a i => ((S' i).adj a).v - (d a + e.grad m σ a)) fun a ha => h3 a ha
    refine ⟨max C1 C2, min δ1 δ2, max K1 K2, lt_min p1 p2, hD, fun ε0 rnd hε0 hlt hrnd s S qv qa jv ja seed g1 g2 g3 g4 g5 g6 => ?_⟩
    let i : I := ⟨⟨ε0, max K1 K2, rnd, s, S, qv, qa, jv, ja, seed⟩, hε0, hrnd, g1, g2, g3, g4, g5, g6⟩
    refine ⟨S' i, r i, y i, (h1 i).1, (h1 i).2, fun k hk => ?_, fun a ha => ?_⟩
    · exact (b1 i (hlt.trans_le (min_le_left _ _)) (le_max_left _ _) k (Finset.mem_range.2 hk)).trans (mul_le_mul_of_nonneg_right (le_max_left _ _) hε0.le)
    · exact (b2 i (hlt.trans_le (min_le_right _ _)) (le_max_right _ _) a ha).trans (mul_le_mul_of_nonneg_right (le_max_right _ _) hε0.le)
  · refine ⟨0, 1, 0, one_pos, hD, fun ε0 rnd hε0 _ hrnd s S qv qa jv ja seed g1 g2 g3 g4 g5 g6 => (hne ?_).elim⟩
    exact ⟨⟨⟨ε0, 0, rnd, s, S, qv, qa, jv, ja, seed⟩, hε0, hrnd, g1, g2, g3, g4, g5, g6⟩⟩

/-- **C57, floating-point numbers.** In particular there are constants `C` and `N` such that the errors are at most `C 2^-p` in every floating-point format with `p ≥ N` binary digits and exponents up to `N` at least (`Rounded.float`), with inputs
given up to an error of `B 2^-p`. -/
theorem C57_floating_point [LawfulLinAlg] {e : Expr ℝ} {m d σ : ℕ → ℝ} (hwf : e.WF) (hin : e.Inside realDoms m) (B : ℝ) :
    ∃ (D : ℕ → ℝ) (C : ℝ) (N : ℕ),
      (∀ π, e.Paired π → Set.InjOn π e.adjCells → (∀ a ∈ e.adjCells, π a ∉ e.constCells) → ∀ a ∈ e.adjCells,
        HasDerivAt (fun t => ∑ k ∈ Finset.range e.size, σ k * e.denote (Function.update m (π a) t) k) (D a) (m (π a))) ∧
      ∀ p ≥ N, ∀ (lo hi : ℤ), lo ≤ 0 → N ≤ hi →
      ∀ (s S : St (Rounded (Rounded.float p lo hi))) (qv qa : ℕ) (jv ja seed : ℕ → Rounded (Rounded.float p lo hi)), e.Alive s.vok s.aok → Fresh s e.bindSize qv qa →
        Later (bindExpr (e.map .lit) qv qa jv ja s).2 S →
        (∀ c ∈ e.valCells ∪ e.constCells, |(S.val c).v - m c| ≤ B * (1 / 2) ^ p) → (∀ a ∈ e.adjCells, |(S.adj a).v - d a| ≤ B * (1 / 2) ^ p) → (∀ k < e.size, |(seed k).v - σ k| ≤ B * (1 / 2) ^ p) →
        ∃ S' r y, autodiff (bindExpr (e.map .lit) qv qa jv ja s).1 seed S = some (S', r) ∧ r.read S' e.size = some y ∧
          (∀ k < e.size, |(y k).v - e.denote m k| ≤ C * (1 / 2) ^ p) ∧ ∀ a ∈ e.adjCells, |(S'.adj a).v - (d a + D a)| ≤ C * (1 / 2) ^ p := by
  obtain ⟨D, C, δ, M, h0, hD, h⟩ := C57_error_bound (d := d) (σ := σ) hwf hin B
  obtain ⟨N1, hN1⟩ := eventually_atTop.1 (half_pow_tendsto.eventually_lt_const h0)
  obtain ⟨N2, hN2⟩ := exists_nat_gt M
  refine ⟨D, C, max N1 N2, hD, fun p hp lo hi hlo hhi s S qv qa jv ja seed g1 g2 g3 g4 g5 g6 => ?_⟩
  refine h ((1 / 2) ^ p) _ (by positivity) (hN1 p ((le_max_left _ _).trans hp)) (fun x hx => ?_) s S qv qa jv ja seed g1 g2 g3 g4 g5 g6
  have e1 : (N2 : ℝ) ≤ 2 ^ N2 := by exact_mod_cast Nat.lt_two_pow_self.le
  have e2 : (2 : ℝ) ^ (N2 : ℤ) ≤ 2 ^ (hi + 1) := zpow_le_zpow_right₀ (by norm_num) (by
    have : ((max N1 N2 : ℕ) : ℤ) ≤ hi := hhi
    have h2 : N2 ≤ max N1 N2 := le_max_right _ _
    omega)
  rw [zpow_natCast] at e2
  refine (float_err p hlo (hx.trans_lt (hN2.trans_le (e1.trans e2)))).trans (mul_le_mul_of_nonneg_right ?_ (by positivity))
  exact pow_le_pow_of_le_one (by norm_num) (by norm_num) (Nat.le_succ p)

/-- **C57, programs.** The same for programs with placeholders and compound assignments, for scalar values and all variables but the placeholders, if the adjoints of the assigned variables are 0 up to an error of `B ε` before the pass. -/
theorem C57_program_error_bound [LawfulLinAlg] {p : Expr ℝ} {m d σ : ℕ → ℝ} (hp : p.Program) (hin : InsideSeq realDoms p.flat m) (hd : ∀ a ∈ p.targetAdj, d a = 0) (B : ℝ) :
    ∃ (D : ℕ → ℝ) (C δ M : ℝ), 0 < δ ∧
      (∀ π, p.Paired π → Set.InjOn π p.adjCells → (∀ c ∈ p.constCells, c ∉ p.targetCells) → ∀ a ∈ p.adjCells, π a ∉ p.constCells → π a ∉ p.placeCells →
        HasDerivAt (fun t => ∑ k ∈ Finset.range p.size, σ k * p.result (Function.update m (π a) t) k) (D a) (m (π a))) ∧
      ∀ (ε : ℝ) (rnd : ℝ → ℝ), 0 < ε → ε < δ → (∀ x, |x| ≤ M → |rnd x - x| ≤ ε * (1 + |x|)) →
      ∀ (s S : St (Rounded rnd)) (qv qa : ℕ) (jv ja seed : ℕ → Rounded rnd), p.Alive s.vok s.aok → Fresh s p.bindSize qv qa → Later (bindExpr (p.map .lit) qv qa jv ja s).2 S →
        (∀ c ∈ (p.valCells ∪ p.constCells) \ p.placeCells, |(S.val c).v - m c| ≤ B * ε) → (∀ a ∈ p.adjCells, |(S.adj a).v - d a| ≤ B * ε) → (∀ k < p.size, |(seed k).v - σ k| ≤ B * ε) →
        ∃ S' r y, autodiff (bindExpr (p.map .lit) qv qa jv ja s).1 seed S = some (S', r) ∧ r.read S' p.size = some y ∧
          (p.shape.isScl = true → |(y 0).v - p.result m 0| ≤ C * ε) ∧ ∀ a ∈ p.adjCells, |(S'.adj a).v - (d a + D a)| ≤ C * ε := by
  let I := { i : Run // 0 < i.ε ∧ (∀ x, |x| ≤ i.M → |i.rnd x - x| ≤ i.ε * (1 + |x|)) ∧ p.Alive i.s.vok i.s.aok ∧ Fresh i.s p.bindSize i.qv i.qa ∧
    Later (bindExpr (p.map .lit) i.qv i.qa i.jv i.ja i.s).2 i.S ∧ (∀ c ∈ (p.valCells ∪ p.constCells) \ p.placeCells, |(i.S.val c).v - m c| ≤ B * i.ε) ∧
    (∀ a ∈ p.adjCells, |(i.S.adj a).v - d a| ≤ B * i.ε) ∧ ∀ k < p.size, |(i.seed k).v - σ k| ≤ B * i.ε }
  let ε : I → ℝ := fun i => i.1.ε
  have hpos : ∀ i, 0 < ε i := fun i => i.2.1
  let M : I → ℝ := fun i => i.1.M
  have hε : Tendsto ε (comap ε (𝓝 0) ⊓ comap M atTop) (𝓝 0) := tendsto_comap.mono_left inf_le_left
  have hB : ∀ {f : I → ℝ}, (∀ i, |f i| ≤ B * ε i) → f =O[comap ε (𝓝 0) ⊓ comap M atTop] ε := fun h => IsBigO.of_bound B (.of_forall fun i => by
    rw [Real.norm_eq_abs, Real.norm_eq_abs, abs_of_pos (hpos i)]; exact h i)
  have hr : ∀ K, ∀ᶠ i : I in comap ε (𝓝 0) ⊓ comap M atTop, ∀ x, |x| ≤ K → |i.1.rnd x - x| ≤ ε i * (1 + |x|) := fun K => by
    have hM : Tendsto M (comap ε (𝓝 0) ⊓ comap M atTop) atTop := tendsto_comap.mono_left inf_le_right
    filter_upwards [hM.eventually_ge_atTop K] with i hi x hx
    exact i.2.2.1 x (hx.trans hi)
  refine ⟨fun a => backL p.flat m σ d a - d a, ?_⟩
  have hD : ∀ π, p.Paired π → Set.InjOn π p.adjCells → (∀ c ∈ p.constCells, c ∉ p.targetCells) → ∀ a ∈ p.adjCells, π a ∉ p.constCells → π a ∉ p.placeCells →
      HasDerivAt (fun t => ∑ k ∈ Finset.range p.size, σ k * p.result (Function.update m (π a) t) k) (backL p.flat m σ d a - d a) (m (π a)) := by
    intro π hπ hinj hct a ha hc hpl
    refine prog_partial hp ⟨hπ, hinj, hct⟩ ha hc hpl (insideSeq_reg _ _ hp.stmts (fun c => ?_) (by rwa [Function.update_eq_self])) σ d hd
    by_cases hca : c = π a
    · subst hca; simp only [Function.update_self]; exact tendsto_id
    · simp only [Function.update_of_ne hca]; exact tendsto_const_nhds
  by_cases hne : Nonempty I
  · obtain ⟨S', r, y, h1, h2, h3⟩ := approx_program (rounded_accurate hr hε) near_congr near_mix (rd := fun i => Rounded.lit) (fun c => near_op hr hε (f := fun x => x) differentiableAt_id (near_exact c)) hp hin
      (s := fun i => i.1.s) (S := fun i => i.1.S) (d := d) (σ := σ) (seed := fun i => i.1.seed) (fun i => i.2.2.2.1) (fun i => i.2.2.2.2.1) (fun i => i.2.2.2.2.2.1) (fun c hc => hB fun i => i.2.2.2.2.2.2.1 c hc)
      (fun a ha => hB fun i => i.2.2.2.2.2.2.2.1 a ha) fun k hk => hB fun i => i.2.2.2.2.2.2.2.2 k hk
    obtain ⟨C1, δ1, K1, p1, b1⟩ := near_bound (M := M) hpos (if p.shape.isScl = true then {0} else ∅ : Finset ℕ) (f := fun k i => (y i 0).v - p.result m 0) fun k hk => h2 (by
      by_contra hs; simp [hs] at hk)
    obtain ⟨C2, δ2, K2, p2, b2⟩ := near_bound (M := M) hpos p.adjCells (f := fun a i => ((S' i).adj a).v - (d a + (backL p.flat m σ d a - d a))) fun a ha => by
      rw [add_sub_cancel]; exact h3 a ha
    refine ⟨max C1 C2, min δ1 δ2, max K1 K2, lt_min p1 p2, hD, fun ε0 rnd hε0 hlt hrnd s S qv qa jv ja seed g1 g2 g3 g4 g5 g6 => ?_⟩
    let i : I := ⟨⟨ε0, max K1 K2, rnd, s, S, qv, qa, jv, ja, seed⟩, hε0, hrnd, g1, g2, g3, g4, g5, g6⟩
    refine ⟨S' i, r i, y i, (h1 i).1, (h1 i).2, fun hs => ?_, fun a ha => ?_⟩
    · exact (b1 i (hlt.trans_le (min_le_left _ _)) (le_max_left _ _) 0 (by simp [hs])).trans (mul_le_mul_of_nonneg_right (le_max_left _ _) hε0.le)
    · exact (b2 i (hlt.trans_le (min_le_right _ _)) (le_max_right _ _) a ha).trans (mul_le_mul_of_nonneg_right (le_max_right _ _) hε0.le)
  · refine ⟨0, 1, 0, one_pos, hD, fun ε0 rnd hε0 _ hrnd s S qv qa jv ja seed g1 g2 g3 g4 g5 g6 => (hne ?_).elim⟩
    exact ⟨⟨⟨ε0, 0, rnd, s, S, qv, qa, jv, ja, seed⟩, hε0, hrnd, g1, g2, g3, g4, g5, g6⟩⟩

end

namespace ConvergeSample

variable [HasInf ℝ] [LinAlg ℝ] [∀ r, HasInf (Rounded r)] [∀ r, LinAlg (Rounded r)]

/-- the memory of the sample with floating-point numbers -/
noncomputable def f (p : ℕ) : St (Rounded (Rounded.float p (-2 ^ p) (2 ^ p))) := ⟨fun a => ⟨Sample.s.val a⟩, fun _ => 0, Sample.s.vok, Sample.s.aok⟩

/-- `sum(x * sin(v)) + log(x)` at `x = 1`, `v = (2, 3)`, computed with `p` binary digits after the point, every result rounded down: from some `p` on, the errors of the value and of the adjoint of `x` are at most `C 2^-p`. -/
example [LawfulLinAlg] : ∃ D C : ℝ, ∃ N : ℕ, HasDerivAt (fun t => Sample.e.denote (Function.update Sample.s.val 0 t) 0) D (Sample.s.val 0) ∧
    ∀ p ≥ N, ∃ S' r y, autodiff (bindExpr (Sample.e.map .lit) 10 10 0 0 (s p)).1 (fun _ => 1) (bindExpr (Sample.e.map .lit) 10 10 0 0 (s p)).2 = some (S', r) ∧ r.read S' 1 = some y ∧
      |(y 0).v - Sample.e.denote Sample.s.val 0| ≤ C * (1 / 2) ^ p ∧ |(S'.adj 0).v - D| ≤ C * (1 / 2) ^ p := by
  have hcell : ∀ c ∈ Sample.e.valCells ∪ Sample.e.constCells, c < 3 := by decide
  obtain ⟨D, C, δ, M, h0, hD, h⟩ := C57_error_bound (e := Sample.e) (m := Sample.s.val) (d := fun _ => 0) (σ := fun _ => 1) Sample.e_wf (e_inside (by simp [Sample.s])) 4
  obtain ⟨N, hN⟩ := eventually_atTop.1 (half_pow_tendsto.eventually_lt_const h0)
  refine ⟨D 0, C, N, ?_, fun p hp => ?_⟩
  · have h1 := hD id Sample.e_paired (Set.injOn_id _) (fun a _ => by simp [Sample.e_constCells]) 0 (by decide)
    have : Sample.e.size = 1 := by decide
    simpa [this] using h1
  · have hpos : (0 : ℝ) < (1 / 2) ^ p := by positivity
    obtain ⟨S', r, y, h1, h2, h3, h4⟩ := h ((1 / 2) ^ p) (grid p) hpos (hN p hp) (fun x _ => grid_err p x) (s p) (bindExpr (Sample.e.map .lit) 10 10 0 0 (s p)).2 10 10 0 0 (fun _ => 1)
      Sample.e_alive ⟨Sample.e_fresh.1, Sample.e_fresh.2⟩ ⟨fun _ h => h, fun _ h => h⟩
      (fun c hc => by
        have hc3 := hcell c hc
        have e1 : (bindExpr (Sample.e.map .lit) 10 10 0 0 (s p)).2.val c = ⟨grid p (Sample.s.val c)⟩ := if_neg (by omega)
        rw [e1]
        have e2 : 1 + |Sample.s.val c| ≤ 4 := by
          have : Sample.s.val c = (c : ℝ) + 1 := rfl
          have h3 : (c : ℝ) ≤ 2 := by exact_mod_cast (by omega : c ≤ 2)
          rw [this, abs_of_nonneg (by positivity)]
          linarith
        refine (grid_err p _).trans ?_
        nlinarith)
      (fun a ha => by
        have e1 : (bindExpr (Sample.e.map .lit) 10 10 0 0 (s p)).2.adj a = 0 := if_neg (by rw [Sample.e_adjCells] at ha; fin_cases ha <;> simp)
        rw [e1, show (0 : Rounded (grid p)).v = 0 from rfl, sub_zero, abs_zero]
        positivity)
      (fun k _ => by
        rw [show (1 : Rounded (grid p)).v = 1 from rfl, sub_self, abs_zero]
        positivity)
    exact ⟨S', r, y, h1, h2, h3 0 (by decide), by simpa using h4 0 (by decide)⟩

/-- the same in floating-point formats with `p` digits and exponents between `-2^p` and `2^p` -/
example [LawfulLinAlg] : ∃ D C : ℝ, ∃ N : ℕ, HasDerivAt (fun t => Sample.e.denote (Function.update Sample.s.val 0 t) 0) D (Sample.s.val 0) ∧
    ∀ p ≥ N, ∃ S' r y, autodiff (bindExpr (Sample.e.map .lit) 10 10 0 0 (f p)).1 (fun _ => 1) (bindExpr (Sample.e.map .lit) 10 10 0 0 (f p)).2 = some (S', r) ∧ r.read S' 1 = some y ∧
      |(y 0).v - Sample.e.denote Sample.s.val 0| ≤ C * (1 / 2) ^ p ∧ |(S'.adj 0).v - D| ≤ C * (1 / 2) ^ p := by
  have hcell : ∀ c ∈ Sample.e.valCells ∪ Sample.e.constCells, c < 3 := by decide
  obtain ⟨D, C, N, hD, h⟩ := C57_floating_point (e := Sample.e) (m := Sample.s.val) (d := fun _ => 0) (σ := fun _ => 1) Sample.e_wf (e_inside (by simp [Sample.s])) 0
  refine ⟨D 0, C, N, ?_, fun p hp => ?_⟩
  · have h1 := hD id Sample.e_paired (Set.injOn_id _) (fun a _ => by simp [Sample.e_constCells]) 0 (by decide)
    have : Sample.e.size = 1 := by decide
    simpa [this] using h1
  · obtain ⟨S', r, y, h1, h2, h3, h4⟩ := h p hp (-2 ^ p) (2 ^ p) (by simp) (by exact_mod_cast hp.trans Nat.lt_two_pow_self.le) (f p) (bindExpr (Sample.e.map .lit) 10 10 0 0 (f p)).2 10 10 0 0 (fun _ => 1)
      Sample.e_alive ⟨Sample.e_fresh.1, Sample.e_fresh.2⟩ ⟨fun _ h => h, fun _ h => h⟩
      (fun c hc => by
        have hc3 := hcell c hc
        rw [show (bindExpr (Sample.e.map .lit) 10 10 0 0 (f p)).2.val c = ⟨Sample.s.val c⟩ from if_neg (by omega)]
        simp)
      (fun a ha => by
        rw [show (bindExpr (Sample.e.map .lit) 10 10 0 0 (f p)).2.adj a = 0 from if_neg (by rw [Sample.e_adjCells] at ha; fin_cases ha <;> simp)]
        simp [show (0 : Rounded (Rounded.float p (-2 ^ p) (2 ^ p))).v = 0 from rfl])
      (fun k _ => by simp [show (1 : Rounded (Rounded.float p (-2 ^ p) (2 ^ p))).v = 1 from rfl])
    exact ⟨S', r, y, h1, h2, h3 0 (by decide), by simpa using h4 0 (by decide)⟩

/-- the program `w = x * sin(x), v *= w, sum(v)` at `x = 1`, `v = (2, 3)` in the same arithmetic: the adjoint of `x` differs from `5 sin 1 + 5 cos 1` by at most `C 2^-p` -/
example [LawfulLinAlg] : ∃ C : ℝ, ∃ N : ℕ, ∀ i ≥ N, ∃ S' r, autodiff (bindExpr (Sample.p.map .lit) 10 10 0 0 (u i)).1 (fun _ => 1) (bindExpr (Sample.p.map .lit) 10 10 0 0 (u i)).2 = some (S', r) ∧
    |(S'.adj 0).v - (5 * Real.sin 1 + 5 * Real.cos 1)| ≤ C * (1 / 2) ^ i := by
  have hcell : ∀ c ∈ Sample.p.valCells ∪ Sample.p.constCells, c < 4 := by decide
  have hacell : ∀ c ∈ Sample.p.adjCells, c < 4 := by decide
  obtain ⟨D, C, δ, M, h0, hD, h⟩ := C57_program_error_bound (p := Sample.p) (m := Sample.t.val) (d := fun _ => 0) (σ := fun _ => 1) Sample.p_program (p_inside _) (fun _ _ => rfl) 5
  obtain ⟨N, hN⟩ := eventually_atTop.1 (half_pow_tendsto.eventually_lt_const h0)
  refine ⟨C, N, fun i hi => ?_⟩
  have hpos : (0 : ℝ) < (1 / 2) ^ i := by positivity
  obtain ⟨S', r, y, h1, -, -, h4⟩ := h ((1 / 2) ^ i) (grid i) hpos (hN i hi) (fun x _ => grid_err i x) (u i) (bindExpr (Sample.p.map .lit) 10 10 0 0 (u i)).2 10 10 0 0 (fun _ => 1)
    Sample.p_alive ⟨Sample.p_fresh.1, Sample.p_fresh.2⟩ ⟨fun _ h => h, fun _ h => h⟩
    (fun c hc => by
      have hc3 := hcell c (Finset.mem_sdiff.1 hc).1
      have e1 : (bindExpr (Sample.p.map .lit) 10 10 0 0 (u i)).2.val c = ⟨grid i (Sample.t.val c)⟩ := if_neg (by omega)
      rw [e1]
      have e2 : 1 + |Sample.t.val c| ≤ 5 := by
        have : Sample.t.val c = (c : ℝ) + 1 := rfl
        have h3 : (c : ℝ) ≤ 3 := by exact_mod_cast (by omega : c ≤ 3)
        rw [this, abs_of_nonneg (by positivity)]
        linarith
      refine (grid_err i _).trans ?_
      nlinarith)
    (fun a ha => by
      have e1 : (bindExpr (Sample.p.map .lit) 10 10 0 0 (u i)).2.adj a = 0 := if_neg (by have := hacell a ha; omega)
      rw [e1, show (0 : Rounded (grid i)).v = 0 from rfl, sub_zero, abs_zero]
      positivity)
    (fun k _ => by
      rw [show (1 : Rounded (grid i)).v = 1 from rfl, sub_self, abs_zero]
      positivity)
  refine ⟨S', r, h1, ?_⟩
  have h5 := h4 0 (by decide)
  have h6 := hD id Sample.p_paired (Set.injOn_id _) (by decide) 0 (by decide) (by decide) (by decide)
  have hs : Sample.p.size = 1 := by decide
  simp only [hs, Finset.range_one, Finset.sum_singleton, Sample.p_result, one_mul, id] at h6
  simp only [Sample.t] at h6
  norm_num at h6
  have h7 : HasDerivAt (fun x => 2 * (x * Real.sin x) + 3 * (x * Real.sin x)) (2 * (1 * Real.sin 1 + 1 * Real.cos 1) + 3 * (1 * Real.sin 1 + 1 * Real.cos 1)) 1 :=
    (((hasDerivAt_id (1 : ℝ)).mul (Real.hasDerivAt_sin 1)).const_mul 2).fun_add (((hasDerivAt_id (1 : ℝ)).mul (Real.hasDerivAt_sin 1)).const_mul 3)
  rw [h6.unique h7, zero_add] at h5
  convert h5 using 3
  ring

end ConvergeSample

end FastAD
