import Verif.Proof.StatUniform

/-!
# Log-density nodes: Bernoulli
-/

open scoped Real Topology
open ProbabilityTheory

namespace FastAD

noncomputable section

variable [HasInf ℝ]
set_option linter.unusedSectionVars false

open Classical in
/-- derivative of the log-probability of an outcome in the (clipped) success probability -/
def massD (x p : ℝ) : ℝ := if 0 < p ∧ p < 1 then (if x = 1 then 1 / p else -1 / (1 - p)) else 0

theorem mass_pos_iff {x p : ℝ} : 0 < bernoulliMass x p ↔ (x = 1 ∧ 0 < p) ∨ (x = 0 ∧ p < 1) := by
  rw [bernoulliMass]
  by_cases h1 : x = 1
  · subst h1
    simp
  · by_cases h0 : x = 0
    · subst h0
      simp
    · simp [h1, h0]

theorem mass_one {p : ℝ} (h0 : 0 < p) (h1 : p < 1) : bernoulliMass 1 p = p := by
  rw [bernoulliMass, if_pos rfl, min_eq_left h1.le, max_eq_right h0.le]

theorem mass_zero {p : ℝ} (h0 : 0 < p) (h1 : p < 1) : bernoulliMass 0 p = 1 - p := by
  rw [bernoulliMass, if_neg (by norm_num), if_pos rfl, min_eq_left h1.le, max_eq_right h0.le]

theorem mass_out {x p : ℝ} (hp : ¬ (0 < p ∧ p < 1)) (h : 0 < bernoulliMass x p) : bernoulliMass x p = 1 := by
  rcases mass_pos_iff.1 h with ⟨rfl, h0⟩ | ⟨rfl, h1⟩
  · have : 1 ≤ p := not_lt.1 fun h => hp ⟨h0, h⟩
    simp [bernoulliMass, this]
  · have : p ≤ 0 := not_lt.1 fun h => hp ⟨h, h1⟩
    simp [bernoulliMass, this]

theorem mass_deriv {E : Type} [NormedAddCommGroup E] [NormedSpace ℝ E] {A : E → ℝ} {A' : E →L[ℝ] ℝ} {t : E} {x : ℝ} (hA : HasFDerivAt A A' t)
    (hm : 0 < bernoulliMass x (A t)) (h0 : A t ≠ 0) (h1 : A t ≠ 1) :
    HasFDerivAt (fun t => Real.log (bernoulliMass x (A t))) (massD x (A t) • A') t ∧ ∀ᶠ s in 𝓝 t, 0 < bernoulliMass x (A s) := by
  have hc := hA.continuousAt
  have hx := mass_pos_iff.1 hm
  constructor
  · by_cases hin : 0 < A t ∧ A t < 1
    · have ev : ∀ᶠ s in 𝓝 t, 0 < A s ∧ A s < 1 := (hc.eventually_const_lt hin.1).and (hc.eventually_lt_const hin.2)
      have hd : massD x (A t) = if x = 1 then 1 / A t else -1 / (1 - A t) := if_pos hin
      rcases hx with ⟨rfl, -⟩ | ⟨rfl, -⟩
      · refine ((hA.log hin.1.ne').congr_fderiv ?_).congr_of_eventuallyEq ?_
        · rw [hd, if_pos rfl, one_div]
        · filter_upwards [ev] with s hs
          rw [mass_one hs.1 hs.2]
      · have hne : 1 - A t ≠ 0 := by linarith [hin.2]
        refine (((hA.const_sub 1).log hne).congr_fderiv ?_).congr_of_eventuallyEq ?_
        · rw [hd, if_neg (by norm_num)]
          ext u
          simp
          ring
        · filter_upwards [ev] with s hs
          rw [mass_zero hs.1 hs.2]
    · have hd : massD x (A t) = 0 := if_neg hin
      have ev : ∀ᶠ s in 𝓝 t, ¬ (0 < A s ∧ A s < 1) ∧ 0 < bernoulliMass x (A s) := by
        rcases hx with ⟨rfl, h⟩ | ⟨rfl, h⟩
        · have : 1 < A t := lt_of_le_of_ne (not_lt.1 fun h' => hin ⟨h, h'⟩) h1.symm
          filter_upwards [hc.eventually_const_lt this] with s hs
          exact ⟨fun h => absurd h.2 hs.not_gt, mass_pos_iff.2 (.inl ⟨rfl, by linarith⟩)⟩
        · have : A t < 0 := lt_of_le_of_ne (not_lt.1 fun h' => hin ⟨h', h⟩) h0
          filter_upwards [hc.eventually_lt_const this] with s hs
          exact ⟨fun h => absurd h.1 hs.not_gt, mass_pos_iff.2 (.inr ⟨rfl, by linarith⟩)⟩
      rw [hd, zero_smul]
      refine (hasFDerivAt_const (0 : ℝ) t).congr_of_eventuallyEq ?_
      filter_upwards [ev] with s hs
      rw [mass_out hs.1 hs.2, Real.log_one]
  · rcases hx with ⟨rfl, h⟩ | ⟨rfl, h⟩
    · filter_upwards [hc.eventually_const_lt h] with s hs
      exact mass_pos_iff.2 (.inl ⟨rfl, hs⟩)
    · filter_upwards [hc.eventually_lt_const h] with s hs
      exact mass_pos_iff.2 (.inr ⟨rfl, hs⟩)

theorem bernoulli_gradient {k : Kinds} {sp : Bool} {n : ℕ} {v : Args ℝ} {seed : ℝ} {calls : List (Slot × (ℕ → ℝ))} (hv : MassPos sp n v) (hs : ProbSmooth sp n v)
    (ha0 : sp = true → seedOf calls .a 0 = seed * ∑ i ∈ Finset.range n, massD (v.x i) (v.a (pidx sp i)))
    (ha1 : sp = false → ∀ i < n, seedOf calls .a i = seed * massD (v.x i) (v.a (pidx sp i))) :
    SeedGradient { k with x := .const } (bdim sp n) (fun _ => True) (orNegInf (MassPos sp n) (bernoulliLog sp n)) v seed calls := by
  intro E _ _ V D t0 h0 _ hD hc
  subst h0
  have hx : ∀ i < n, D .x i = 0 ∧ ∀ t, (V t).x i = (V t0).x i := hc .x rfl
  have hel : ∀ i ∈ Finset.range n, HasFDerivAt (fun t => Real.log (bernoulliMass ((V t0).x i) ((V t).a (pidx sp i))))
      (massD ((V t0).x i) ((V t0).a (pidx sp i)) • D .a (pidx sp i)) t0 ∧ ∀ᶠ t in 𝓝 t0, 0 < bernoulliMass ((V t0).x i) ((V t).a (pidx sp i)) := by
    intro i hi
    have hi := Finset.mem_range.1 hi
    exact mass_deriv (hD .a _ (pidx_lt hi)) (hv i hi) (hs i hi).1 (hs i hi).2
  have h1 : HasFDerivAt (fun t => ∑ i ∈ Finset.range n, Real.log (bernoulliMass ((V t0).x i) ((V t).a (pidx sp i))))
      (∑ i ∈ Finset.range n, massD ((V t0).x i) ((V t0).a (pidx sp i)) • D .a (pidx sp i)) t0 := HasFDerivAt.fun_sum fun i hi => (hel i hi).1
  have ev : ∀ᶠ t in 𝓝 t0, MassPos sp n (V t) := by
    have : ∀ᶠ t in 𝓝 t0, ∀ i ∈ Finset.range n, 0 < bernoulliMass ((V t0).x i) ((V t).a (pidx sp i)) := by
      rw [Filter.eventually_all_finset]
      exact fun i hi => (hel i hi).2
    filter_upwards [this] with t ht i hi
    rw [(hx i hi).2 t]
    exact ht i (Finset.mem_range.2 hi)
  refine ((h1.const_mul seed).congr_fderiv ?_).congr_of_eventuallyEq ?_
  · have hx0 : ∑ i ∈ Finset.range n, seedOf calls .x i • D .x i = 0 := Finset.sum_eq_zero fun i hi => by rw [(hx i (Finset.mem_range.1 hi)).1, smul_zero]
    simp only [chain, hx0, bdim, Finset.range_zero, Finset.sum_empty, add_zero, zero_add]
    exact (chain_param seed sp n _ _ (D .a) ha0 ha1).symm
  · filter_upwards [ev] with t ht
    rw [orNegInf_pos ht, bernoulliLog]
    congr 1
    exact Finset.sum_congr rfl fun i hi => by rw [(hx i (Finset.mem_range.1 hi)).2 t]

theorem mass_of {N : StatNode ℝ} {k : Kinds} {sp : Bool} {n : ℕ} {silent : Args ℝ → Prop} (Inv : Args ℝ → N.Cache → Prop) (hctor : ∀ v0, ∃ c, N.ctor v0 = some c ∧ Inv v0 c)
    (hstep : ∀ v0 c v, Inv v0 c → SameConsts k v0 v → ∃ c', N.feval c v = some (c', orNegInf (MassPos sp n) (bernoulliLog sp n) v) ∧ Inv v0 c' ∧ N.beval c' v 0 = [] ∧
      (∀ seed, silent v → N.beval c' v seed = []) ∧
      ∀ seed, seed ≠ 0 → MassPos sp n v → ProbSmooth sp n v → SeedGradient { k with x := .const } (bdim sp n) (fun _ => True)
        (orNegInf (MassPos sp n) (bernoulliLog sp n)) v seed (N.beval c' v seed)) : ComputesMass N k sp n silent := by
  refine evaluates_of (fun _ _ => True) (by simp) Inv (fun v0 _ => hctor v0) fun v0 c v hI _ hc _ => ?_
  obtain ⟨c', h1, h2, h3, h4, h5⟩ := hstep v0 c v hI hc
  refine ⟨c', h1, h2, fun seed => ⟨fun hp hs => ?_, ?_⟩⟩
  · by_cases h0 : seed = 0
    · subst h0
      rw [h3]
      exact gradient_zero
    · exact h5 seed h0 hp hs
  · rintro (h | rfl)
    · exact h4 seed h
    · exact h3

theorem bernoulliIn_iff (p : ℝ) : bernoulliIn p = true ↔ 0 < p ∧ p < 1 := by simp [bernoulliIn, blt_iff]

theorem ble_iff' (x y : ℝ) : Fn.ble x y = true ↔ x ≤ y := by simp [Fn.ble]

theorem beq_iff' (x y : ℝ) : Fn.beq x y = true ↔ x = y := by simp [Fn.beq]

theorem bernoulliUpdate_in {p : ℝ} (h : 0 < p ∧ p < 1) (c : ℝ × ℝ) : bernoulliUpdate p c = (Real.log p, Real.log (1 - p)) := by
  rw [bernoulliUpdate, if_pos ((bernoulliIn_iff _).2 h)]; rfl

theorem bernoulliUpdate_out {p : ℝ} (h : ¬ (0 < p ∧ p < 1)) (c : ℝ × ℝ) : bernoulliUpdate p c = c := by
  rw [bernoulliUpdate, if_neg fun h' => h ((bernoulliIn_iff _).1 h')]

theorem bernoulliSS_computes (k : Kinds) : ComputesMass (bernoulliSS k) k true 1 fun v => ¬ MassPos true 1 v := by
  refine mass_of (fun v0 (c : ℝ × ℝ) => k.a = .const → c = bernoulliUpdate (v0.a 0) (0, 0)) (fun v0 => ⟨_, rfl, fun h => ?_⟩) ?_
  · rw [isConst_iff.2 h]; rfl
  · intro v0 (c : ℝ × ℝ) v hI hc
    have hm : MassPos true 1 v ↔ 0 < bernoulliMass (v.x 0) (v.a 0) := by simp [MassPos, pidx]
    have hl : bernoulliLog true 1 v = Real.log (bernoulliMass (v.x 0) (v.a 0)) := by simp [bernoulliLog, pidx]
    obtain ⟨c1, e1, i1, l1⟩ : ∃ c1 : ℝ × ℝ, c1 = (if k.a.isConst then c else bernoulliUpdate (v.a 0) c) ∧ (k.a = .const → c1 = bernoulliUpdate (v0.a 0) (0, 0)) ∧
        (0 < v.a 0 ∧ v.a 0 < 1 → c1 = (Real.log (v.a 0), Real.log (1 - v.a 0))) := by
      refine ⟨_, rfl, fun hk => ?_, fun hp => ?_⟩
      · rw [isConst_iff.2 hk, if_pos rfl, hI hk]
      · by_cases hk : k.a = .const
        · rw [isConst_iff.2 hk, if_pos rfl, hI hk, ← show v.a = v0.a from hc .a hk, bernoulliUpdate_in hp]
        · rw [isConst_false hk, if_neg (by simp), bernoulliUpdate_in hp]
    refine ⟨c1, ?_, i1, by simp [bernoulliSS, beq_self], fun seed hs => ?_, fun seed h0 hpos hsm => ?_⟩
    · simp only [bernoulliSS, ret]
      erw [← e1]
      by_cases hp : 0 < v.a 0 ∧ v.a 0 < 1
      · rw [(bernoulliIn_iff _).2 hp, l1 hp]
        simp only [Bool.not_true, Bool.false_eq_true, if_false, beq_iff']
        by_cases h0 : v.x 0 = 0
        · have hpos : 0 < bernoulliMass (v.x 0) (v.a 0) := mass_pos_iff.2 (.inr ⟨h0, hp.2⟩)
          rw [if_pos h0, orNegInf_pos (hm.2 hpos), hl, h0, mass_zero hp.1 hp.2]
        · rw [if_neg h0]
          by_cases h1 : v.x 0 = 1
          · have hpos : 0 < bernoulliMass (v.x 0) (v.a 0) := mass_pos_iff.2 (.inl ⟨h1, hp.1⟩)
            rw [if_pos h1, orNegInf_pos (hm.2 hpos), hl, h1, mass_one hp.1 hp.2]
          · have hpos : ¬ 0 < bernoulliMass (v.x 0) (v.a 0) := fun h => by rcases mass_pos_iff.1 h with h | h <;> simp_all
            rw [if_neg h1, orNegInf_neg fun h => hpos (hm.1 h)]
      · have hb : bernoulliIn (v.a 0) = false := by rw [← Bool.not_eq_true, bernoulliIn_iff]; exact hp
        simp only [hb, Bool.not_false, if_true, ble_iff', beq_iff']
        by_cases hle : v.a 0 ≤ 0
        · rw [if_pos hle]
          by_cases h0 : v.x 0 = 0
          · have hpos : 0 < bernoulliMass (v.x 0) (v.a 0) := mass_pos_iff.2 (.inr ⟨h0, by linarith⟩)
            rw [if_pos h0, orNegInf_pos (hm.2 hpos), hl, mass_out hp hpos, Real.log_one]
          · have hpos : ¬ 0 < bernoulliMass (v.x 0) (v.a 0) := fun h => by
              rcases mass_pos_iff.1 h with h | h
              · exact absurd h.2 hle.not_gt
              · exact h0 h.1
            rw [if_neg h0, orNegInf_neg fun h => hpos (hm.1 h)]
        · have hge : 1 ≤ v.a 0 := not_lt.1 fun h => hp ⟨not_le.1 hle, h⟩
          rw [if_neg hle]
          by_cases h1 : v.x 0 = 1
          · have hpos : 0 < bernoulliMass (v.x 0) (v.a 0) := mass_pos_iff.2 (.inl ⟨h1, by linarith⟩)
            rw [if_pos h1, orNegInf_pos (hm.2 hpos), hl, mass_out hp hpos, Real.log_one]
          · have hpos : ¬ 0 < bernoulliMass (v.x 0) (v.a 0) := fun h => by
              rcases mass_pos_iff.1 h with h | h
              · exact h1 h.1
              · exact absurd h.2 hge.not_gt
            rw [if_neg h1, orNegInf_neg fun h => hpos (hm.1 h)]
    · simp only [bernoulliSS]
      refine if_pos ?_
      rw [hm, mass_pos_iff] at hs
      push Not at hs
      by_cases hp : 0 < v.a 0 ∧ v.a 0 < 1
      · have h1 : v.x 0 ≠ 1 := fun h => absurd (hs.1 h) hp.1.not_ge
        have h0 : v.x 0 ≠ 0 := fun h => absurd (hs.2 h) hp.2.not_ge
        simp [Fn.beq, h0, h1]
      · have hb : bernoulliIn (v.a 0) = false := by rw [← Bool.not_eq_true, bernoulliIn_iff]; exact hp
        simp [hb]
    · have hx := mass_pos_iff.1 (hm.1 hpos)
      simp only [bernoulliSS]
      have h01 : (!Fn.beq (v.x 0) 0 && !Fn.beq (v.x 0) 1) = false := by rcases hx with h | h <;> simp [Fn.beq, h.1]
      by_cases hp : 0 < v.a 0 ∧ v.a 0 < 1
      · simp only [seed_ne h0, (bernoulliIn_iff _).2 hp, h01, Bool.not_true, Bool.or_self, Bool.false_eq_true, if_false]
        refine bernoulli_gradient hpos hsm (fun _ => ?_) (fun h => by cases h)
        simp only [massD, pidx, if_true, Finset.sum_range_one, hp.1, hp.2, and_self, seedOf, List.map_cons, List.map_nil, List.sum_cons, List.sum_nil, beq_iff', add_zero]
        rcases hx with h | h
        · simp [h.1]; ring
        · simp [h.1]; ring
      · have hb : bernoulliIn (v.a 0) = false := by rw [← Bool.not_eq_true, bernoulliIn_iff]; exact hp
        simp only [hb, Bool.not_false, Bool.or_true, Bool.true_or, if_true]
        refine bernoulli_gradient hpos hsm (fun _ => ?_) (fun h => by cases h)
        simp [massD, pidx, hp, seedOf]

theorem zeroOneN_iff (n : ℕ) (x : ℕ → ℝ) : zeroOneN n x = true ↔ ∀ i < n, x i = 0 ∨ x i = 1 := by
  simp [zeroOneN, allN_iff, beq_iff']

theorem sum_zero_iff {n : ℕ} {x : ℕ → ℝ} (h : ∀ i < n, x i = 0 ∨ x i = 1) : sumN n x = 0 ↔ ∀ i < n, x i = 0 := by
  rw [sumN_eq, Finset.sum_eq_zero_iff_of_nonneg fun i hi => by rcases h i (Finset.mem_range.1 hi) with h | h <;> simp [h]]
  simp

theorem sum_one_iff {n : ℕ} {x : ℕ → ℝ} (h : ∀ i < n, x i = 0 ∨ x i = 1) : sumN n x = n ↔ ∀ i < n, x i = 1 := by
  have h2 : sumN n (fun i => 1 - x i) = 0 ↔ ∀ i < n, 1 - x i = 0 := sum_zero_iff fun i hi => by rcases h i hi with h | h <;> simp [h]
  rw [sumN_eq, Finset.sum_sub_distrib] at h2
  simp only [Finset.sum_const, Finset.card_range, nsmul_eq_mul, mul_one, sub_eq_zero] at h2
  rw [sumN_eq, eq_comm, h2]
  exact forall₂_congr fun i _ => eq_comm

theorem sum_log_mass {n : ℕ} {x : ℕ → ℝ} {p : ℝ} (hp : 0 < p ∧ p < 1) (h : ∀ i < n, x i = 0 ∨ x i = 1) :
    ∑ i ∈ Finset.range n, Real.log (bernoulliMass (x i) p) = sumN n x * Real.log p + (n - sumN n x) * Real.log (1 - p) := by
  have e : ∀ i ∈ Finset.range n, Real.log (bernoulliMass (x i) p) = x i * Real.log p + (1 - x i) * Real.log (1 - p) := by
    intro i hi
    rcases h i (Finset.mem_range.1 hi) with h | h
    · rw [h, mass_zero hp.1 hp.2]; ring
    · rw [h, mass_one hp.1 hp.2]; ring
  rw [Finset.sum_congr rfl e, Finset.sum_add_distrib, ← Finset.sum_mul, ← Finset.sum_mul, Finset.sum_sub_distrib, sumN_eq]
  simp

theorem sum_massD {n : ℕ} {x : ℕ → ℝ} {p : ℝ} (hp : 0 < p ∧ p < 1) (h : ∀ i < n, x i = 0 ∨ x i = 1) :
    ∑ i ∈ Finset.range n, massD (x i) p = (sumN n x - n * p) / (p * (1 - p)) := by
  have hp0 := hp.1.ne'
  have hp1 : 1 - p ≠ 0 := by linarith [hp.2]
  have e : ∀ i ∈ Finset.range n, massD (x i) p = (x i - p) / (p * (1 - p)) := by
    intro i hi
    rw [massD, if_pos hp]
    rcases h i (Finset.mem_range.1 hi) with h | h
    · rw [h, if_neg (by norm_num)]; field_simp; ring
    · rw [h, if_pos rfl]; field_simp
  rw [Finset.sum_congr rfl e, ← Finset.sum_div, Finset.sum_sub_distrib, sumN_eq]
  simp

theorem bernoulliVS_computes (k : Kinds) (n : ℕ) : ComputesMass (bernoulliVS k n) k true n fun v => ¬ MassPos true n v := by
  refine mass_of (fun v0 (c : BernoulliCache ℝ) => (k.a = .const → c.logs = bernoulliUpdate (v0.a 0) (0, 0)) ∧
    (k.x = .const → c.zeroOne = zeroOneN n v0.x ∧ c.xSum = sumN n v0.x)) (fun v0 => ⟨_, rfl, fun h => ?_, fun h => ?_⟩) ?_
  · simp only [isConst_iff.2 h, if_true]
  · simp only [isConst_iff.2 h, if_true, and_self]
  · intro v0 (c : BernoulliCache ℝ) v hI hc
    have hm : MassPos true n v ↔ ∀ i < n, 0 < bernoulliMass (v.x i) (v.a 0) := by simp [MassPos, pidx]
    have hl : bernoulliLog true n v = ∑ i ∈ Finset.range n, Real.log (bernoulliMass (v.x i) (v.a 0)) := by simp [bernoulliLog, pidx]
    obtain ⟨c1, e1, i1, l1, s1⟩ : ∃ c1 : BernoulliCache ℝ, c1 = (if k.a.isConst then c else { c with logs := bernoulliUpdate (v.a 0) c.logs }) ∧
        (k.a = .const → c1.logs = bernoulliUpdate (v0.a 0) (0, 0)) ∧
        (0 < v.a 0 ∧ v.a 0 < 1 → c1.logs = (Real.log (v.a 0), Real.log (1 - v.a 0))) ∧ (c1.zeroOne = c.zeroOne ∧ c1.xSum = c.xSum) := by
      refine ⟨_, rfl, fun hk => ?_, fun hp => ?_, ?_⟩
      · rw [isConst_iff.2 hk, if_pos rfl, hI.1 hk]
      · by_cases hk : k.a = .const
        · rw [isConst_iff.2 hk, if_pos rfl, hI.1 hk, ← show v.a = v0.a from hc .a hk, bernoulliUpdate_in hp]
        · rw [isConst_false hk, if_neg (by simp)]; exact bernoulliUpdate_in hp _
      · split <;> simp
    obtain ⟨c2, e2, z2, x2, l2, i2⟩ : ∃ c2 : BernoulliCache ℝ, c2 = (if k.x.isConst then c1 else { c1 with zeroOne := zeroOneN n v.x, xSum := sumN n v.x }) ∧
        c2.zeroOne = zeroOneN n v.x ∧ c2.xSum = sumN n v.x ∧ c2.logs = c1.logs ∧ (k.x = .const → c2.zeroOne = zeroOneN n v0.x ∧ c2.xSum = sumN n v0.x) := by
      refine ⟨_, rfl, ?_⟩
      by_cases hk : k.x = .const
      · have hxx : v.x = v0.x := hc .x hk
        simp only [isConst_iff.2 hk, if_true, hxx, s1, (hI.2 hk), and_self, implies_true]
      · simp [isConst_false hk, hk]
    refine ⟨c2, ?_, ⟨fun h => by rw [l2, i1 h], i2⟩, by simp [bernoulliVS, beq_self], fun seed hs => ?_, fun seed h0 hpos hsm => ?_⟩
    · simp only [bernoulliVS, ret, ← e1, ← e2]
      by_cases hp : 0 < v.a 0 ∧ v.a 0 < 1
      · rw [(bernoulliIn_iff _).2 hp, l2, l1 hp, x2, z2]
        simp only [Bool.not_true, Bool.false_eq_true, if_false]
        by_cases hz : zeroOneN n v.x = true
        · have hz' := (zeroOneN_iff n v.x).1 hz
          have hpos : MassPos true n v := hm.2 fun i hi => mass_pos_iff.2 <| (hz' i hi).elim (fun h => .inr ⟨h, hp.2⟩) fun h => .inl ⟨h, hp.1⟩
          rw [if_pos hz, orNegInf_pos hpos, hl, sum_log_mass hp hz']
        · rw [if_neg hz, orNegInf_neg]
          rw [zeroOneN_iff] at hz
          exact fun h => hz fun i hi => by rcases mass_pos_iff.1 (hm.1 h i hi) with h | h <;> simp [h.1]
      · have hb : bernoulliIn (v.a 0) = false := by rw [← Bool.not_eq_true, bernoulliIn_iff]; exact hp
        have hval : MassPos true n v → bernoulliLog true n v = 0 := fun h => by
          rw [hl]; exact Finset.sum_eq_zero fun i hi => by rw [mass_out hp (hm.1 h i (Finset.mem_range.1 hi)), Real.log_one]
        simp only [hb, Bool.not_false, if_true, ble_iff', beq_iff', x2, z2, Bool.and_eq_true]
        by_cases hle : v.a 0 ≤ 0
        · rw [if_pos hle]
          have heq : (sumN n v.x = 0 ∧ zeroOneN n v.x = true) ↔ MassPos true n v := by
            rw [hm, zeroOneN_iff]
            constructor
            · rintro ⟨h1, h2⟩ i hi
              exact mass_pos_iff.2 (.inr ⟨(sum_zero_iff h2).1 h1 i hi, by linarith⟩)
            · intro h
              have h0 : ∀ i < n, v.x i = 0 := fun i hi => by
                rcases mass_pos_iff.1 (h i hi) with h | h
                · exact absurd h.2 hle.not_gt
                · exact h.1
              exact ⟨(sum_zero_iff fun i hi => .inl (h0 i hi)).2 h0, fun i hi => .inl (h0 i hi)⟩
          by_cases hpos : MassPos true n v
          · rw [if_pos (heq.2 hpos), orNegInf_pos hpos, hval hpos]
          · rw [if_neg fun h => hpos (heq.1 h), orNegInf_neg hpos]
        · have hge : 1 ≤ v.a 0 := not_lt.1 fun h => hp ⟨not_le.1 hle, h⟩
          rw [if_neg hle]
          have heq : (sumN n v.x = n ∧ zeroOneN n v.x = true) ↔ MassPos true n v := by
            rw [hm, zeroOneN_iff]
            constructor
            · rintro ⟨h1, h2⟩ i hi
              exact mass_pos_iff.2 (.inl ⟨(sum_one_iff h2).1 h1 i hi, by linarith⟩)
            · intro h
              have h0 : ∀ i < n, v.x i = 1 := fun i hi => by
                rcases mass_pos_iff.1 (h i hi) with h | h
                · exact h.1
                · exact absurd h.2 hge.not_gt
              exact ⟨(sum_one_iff fun i hi => .inr (h0 i hi)).2 h0, fun i hi => .inr (h0 i hi)⟩
          by_cases hpos : MassPos true n v
          · rw [if_pos (heq.2 hpos), orNegInf_pos hpos, hval hpos]
          · rw [if_neg fun h => hpos (heq.1 h), orNegInf_neg hpos]
    · simp only [bernoulliVS, z2]
      refine if_pos ?_
      by_cases hp : 0 < v.a 0 ∧ v.a 0 < 1
      · have : zeroOneN n v.x = false := by
          rw [← Bool.not_eq_true, zeroOneN_iff]
          exact fun hz => hs (hm.2 fun i hi => mass_pos_iff.2 <| (hz i hi).elim (fun h => .inr ⟨h, hp.2⟩) fun h => .inl ⟨h, hp.1⟩)
        simp [this]
      · have hb : bernoulliIn (v.a 0) = false := by rw [← Bool.not_eq_true, bernoulliIn_iff]; exact hp
        simp [hb]
    · have hz : ∀ i < n, v.x i = 0 ∨ v.x i = 1 := fun i hi => by rcases mass_pos_iff.1 (hm.1 hpos i hi) with h | h <;> simp [h.1]
      by_cases hp : 0 < v.a 0 ∧ v.a 0 < 1
      · simp only [bernoulliVS, z2, x2, seed_ne h0, (bernoulliIn_iff _).2 hp, (zeroOneN_iff _ _).2 hz, Bool.not_true, Bool.or_self, Bool.false_eq_true, if_false]
        refine bernoulli_gradient hpos hsm (fun _ => ?_) (fun h => by cases h)
        simp only [pidx, if_true]
        rw [sum_massD hp hz]
        simp [seedOf]
      · have hb : bernoulliIn (v.a 0) = false := by rw [← Bool.not_eq_true, bernoulliIn_iff]; exact hp
        simp only [bernoulliVS, hb, Bool.not_false, Bool.or_true, Bool.true_or, if_true]
        refine bernoulli_gradient hpos hsm (fun _ => ?_) (fun h => by cases h)
        simp [massD, pidx, hp, seedOf]

theorem loop_eq {x p : ℕ → ℝ} (n : ℕ) (hz : ∀ i < n, x i = 0 ∨ x i = 1) :
    ((∀ i < n, 0 < bernoulliMass (x i) (p i)) → bernoulliLoop x p n = some (∑ i ∈ Finset.range n, Real.log (bernoulliMass (x i) (p i)))) ∧
    (¬ (∀ i < n, 0 < bernoulliMass (x i) (p i)) → bernoulliLoop x p n = none) := by
  induction n with
  | zero => simp [bernoulliLoop]
  | succ n ih =>
    obtain ⟨ih1, ih2⟩ := ih fun i hi => hz i (by omega)
    have hstep : ∀ acc : ℝ, bernoulliLoop x p n = some acc → bernoulliLoop x p (n + 1) =
        if 0 < bernoulliMass (x n) (p n) then some (acc + Real.log (bernoulliMass (x n) (p n))) else none := by
      intro acc hacc
      simp only [bernoulliLoop, hacc, Option.bind_eq_bind, Option.bind_some, Bool.and_eq_true, Bool.not_eq_true', ble_iff', bernoulliIn_iff, beq_iff',
        ← Bool.not_eq_true, not_not]
      rcases hz n (by omega) with h | h
      · rw [h]
        by_cases h1 : p n < 1
        · have hpos : 0 < bernoulliMass 0 (p n) := mass_pos_iff.2 (.inr ⟨rfl, h1⟩)
          by_cases h0 : 0 < p n
          · simp [h0, h1, hpos, h1.not_ge, mass_zero h0 h1, Fn.log]
          · have := mass_out (fun h' => h0 h'.1) hpos
            simp [h0, this, h1.not_ge]
        · have hpos : ¬ 0 < bernoulliMass 0 (p n) := fun h => by rcases mass_pos_iff.1 h with h | h <;> simp at h; exact h1 h
          simp [hpos, not_lt.1 h1]
      · rw [h]
        by_cases h0 : 0 < p n
        · have hpos : 0 < bernoulliMass 1 (p n) := mass_pos_iff.2 (.inl ⟨rfl, h0⟩)
          by_cases h1 : p n < 1
          · simp [h0, h1, hpos, h0.not_ge, mass_one h0 h1, Fn.log]
          · have := mass_out (fun h' => h1 h'.2) hpos
            simp [h0.not_ge, this, h1]
        · have hpos : ¬ 0 < bernoulliMass 1 (p n) := fun h => by rcases mass_pos_iff.1 h with h | h <;> simp at h; exact h0 h
          simp [hpos, not_lt.1 h0]
    constructor
    · intro h
      rw [hstep _ (ih1 fun i hi => h i (by omega)), if_pos (h n (by omega)), Finset.sum_range_succ]
    · intro h
      by_cases hn : ∀ i < n, 0 < bernoulliMass (x i) (p i)
      · rw [hstep _ (ih1 hn), if_neg]
        intro h'
        refine h fun i hi => ?_
        rcases Nat.lt_succ_iff_lt_or_eq.1 hi with hi | rfl
        · exact hn i hi
        · exact h'
      · simp [bernoulliLoop, ih2 hn]

theorem bernoulliVV_computes (k : Kinds) (n : ℕ) : ComputesMass (bernoulliVV k n) k false n fun v => ∃ i < n, v.x i ≠ 0 ∧ v.x i ≠ 1 := by
  refine mass_of (fun v0 (c : Bool × Bool) => (k.a = .const → c.1 = allN n fun i => bernoulliIn (v0.a i)) ∧ (k.x = .const → c.2 = zeroOneN n v0.x))
    (fun v0 => ⟨_, rfl, fun h => ?_, fun h => ?_⟩) ?_
  · simp only [isConst_iff.2 h, if_true]
  · simp only [isConst_iff.2 h, if_true]
  · intro v0 (c : Bool × Bool) v hI hc
    have hm : MassPos false n v ↔ ∀ i < n, 0 < bernoulliMass (v.x i) (v.a i) := by simp [MassPos, pidx]
    have hl : bernoulliLog false n v = ∑ i ∈ Finset.range n, Real.log (bernoulliMass (v.x i) (v.a i)) := by simp [bernoulliLog, pidx]
    have e1 : (if k.a.isConst then c.1 else allN n (fun i => bernoulliIn (v.a i))) = allN n (fun i => bernoulliIn (v.a i)) := by
      by_cases hk : k.a = .const
      · rw [isConst_iff.2 hk, if_pos rfl, hI.1 hk, ← show v.a = v0.a from hc .a hk]
      · rw [isConst_false hk, if_neg (by simp)]
    have e2 : (if k.x.isConst then c.2 else zeroOneN n v.x) = zeroOneN n v.x := by
      by_cases hk : k.x = .const
      · rw [isConst_iff.2 hk, if_pos rfl, hI.2 hk, ← show v.x = v0.x from hc .x hk]
      · rw [isConst_false hk, if_neg (by simp)]
    refine ⟨(allN n (fun i => bernoulliIn (v.a i)), zeroOneN n v.x), ?_, ⟨fun hk => by rw [← show v.a = v0.a from hc .a hk], fun hk => by rw [← show v.x = v0.x from hc .x hk]⟩,
      by simp [bernoulliVV, beq_self], fun seed hs => ?_, fun seed h0 hpos hsm => ?_⟩
    · simp only [bernoulliVV, ret, e1, e2]
      by_cases hz : zeroOneN n v.x = true
      · have hz' := (zeroOneN_iff n v.x).1 hz
        rw [if_pos hz]
        by_cases hin : allN n (fun i => bernoulliIn (v.a i)) = true
        · have hin' : ∀ i < n, 0 < v.a i ∧ v.a i < 1 := fun i hi => (bernoulliIn_iff _).1 ((allN_iff _ _).1 hin i hi)
          have hpos : MassPos false n v := hm.2 fun i hi => mass_pos_iff.2 <| (hz' i hi).elim (fun h => .inr ⟨h, (hin' i hi).2⟩) fun h => .inl ⟨h, (hin' i hi).1⟩
          rw [if_neg (by simp [hin]), orNegInf_pos hpos, hl, sumN_eq]
          congr 2
          refine Finset.sum_congr rfl fun i hi => ?_
          have hi := Finset.mem_range.1 hi
          rcases hz' i hi with h | h
          · rw [h, mass_zero (hin' i hi).1 (hin' i hi).2]; simp [Fn.log]
          · rw [h, mass_one (hin' i hi).1 (hin' i hi).2]; simp [Fn.log]
        · rw [if_pos (by simpa using hin)]
          by_cases hpos : MassPos false n v
          · rw [(loop_eq n hz').1 (hm.1 hpos), orNegInf_pos hpos, hl]; rfl
          · rw [(loop_eq n hz').2 fun h => hpos (hm.2 h), orNegInf_neg hpos]; rfl
      · rw [if_neg hz, orNegInf_neg]
        rw [zeroOneN_iff] at hz
        exact fun h => hz fun i hi => by rcases mass_pos_iff.1 (hm.1 h i hi) with h | h <;> simp [h.1]
    · simp only [bernoulliVV]
      refine if_pos ?_
      have : zeroOneN n v.x = false := by
        rw [← Bool.not_eq_true, zeroOneN_iff]
        obtain ⟨i, hi, h0, h1⟩ := hs
        exact fun h => (h i hi).elim h0 h1
      simp [this]
    · have hz : ∀ i < n, v.x i = 0 ∨ v.x i = 1 := fun i hi => by rcases mass_pos_iff.1 (hm.1 hpos i hi) with h | h <;> simp [h.1]
      simp only [bernoulliVV, seed_ne h0, (zeroOneN_iff _ _).2 hz, Bool.not_true, Bool.or_self, Bool.false_eq_true, if_false]
      refine bernoulli_gradient hpos hsm (fun h => by cases h) fun _ i hi => ?_
      simp only [pidx, Bool.false_eq_true, if_false, massD, seedOf, List.map_cons, List.map_nil, List.sum_cons, List.sum_nil, bernoulliIn_iff, beq_iff', add_zero, if_true]
      split
      · split <;> ring
      · simp

end

end FastAD
