import Verif.Proof.Stat

/-!
# Log-density nodes: normal, scalar and vector scale
-/

open scoped Real Topology
open ProbabilityTheory

namespace FastAD

noncomputable section

variable [HasInf ℝ]
set_option linter.unusedSectionVars false

theorem isConst_iff {k : ArgKind} : k.isConst = true ↔ k = .const := by cases k <;> simp [ArgKind.isConst]

theorem isConst_false {k : ArgKind} (h : k ≠ .const) : k.isConst = false := by cases k <;> simp [ArgKind.isConst] at h ⊢

theorem allN_iff (n : ℕ) (p : ℕ → Bool) : allN n p = true ↔ ∀ i < n, p i = true := by simp [allN]

theorem half_eq : (half : ℝ) = 1 / 2 := by norm_num [half]

theorem scaleOk_scl (n : ℕ) (v : Args ℝ) : ScaleOk true n v ↔ 0 < v.b 0 := by simp [ScaleOk, pdim]

theorem scaleOk_vec (n : ℕ) (v : Args ℝ) : ScaleOk false n v ↔ ∀ i < n, 0 < v.b i := by simp [ScaleOk, pdim]

theorem ble_false {x y : ℝ} (h : y < x) : Fn.ble x y = false := by simp [Fn.ble, h]

theorem seed_or {seed : ℝ} {b : Bool} (h : seed = 0 ∨ b = true) : (Fn.beq seed 0 || b) = true := by
  rcases h with h | h <;> simp [h, Fn.beq]

/-- explicit form of the normal log-density -/
theorem normalLog_eq {sm ss : Bool} {n : ℕ} {v : Args ℝ} (h : ScaleOk ss n v) :
    normalLog sm ss n v = ∑ i ∈ Finset.range n, (-(1 / 2) * ((v.x i - v.a (pidx sm i)) / v.b (pidx ss i)) ^ 2 - Real.log (v.b (pidx ss i))) :=
  Finset.sum_congr rfl fun i hi => normal_elem (h _ (pidx_lt (Finset.mem_range.1 hi))) _ _

theorem orNegInf_pos {valid : Args ℝ → Prop} {logp : Args ℝ → ℝ} {v : Args ℝ} (h : valid v) : orNegInf valid logp v = logp v := if_pos h

theorem orNegInf_neg {valid : Args ℝ → Prop} {logp : Args ℝ → ℝ} {v : Args ℝ} (h : ¬ valid v) : orNegInf valid logp v = negInf := if_neg h

theorem normal_gradient {k : Kinds} {sm ss : Bool} {n : ℕ} {Adm : Args ℝ → Prop} {v : Args ℝ} {seed : ℝ} {calls : List (Slot × (ℕ → ℝ))} (hv : ScaleOk ss n v)
    (hx : k.x ≠ .const → ∀ i < n, seedOf calls .x i = seed * (-(v.x i - v.a (pidx sm i)) / v.b (pidx ss i) ^ 2))
    (ha0 : k.a ≠ .const → sm = true → seedOf calls .a 0 = seed * ∑ i ∈ Finset.range n, (v.x i - v.a (pidx sm i)) / v.b (pidx ss i) ^ 2)
    (ha1 : k.a ≠ .const → sm = false → ∀ i < n, seedOf calls .a i = seed * ((v.x i - v.a (pidx sm i)) / v.b (pidx ss i) ^ 2))
    (hb0 : k.b ≠ .const → ss = true → seedOf calls .b 0 =
      seed * ∑ i ∈ Finset.range n, (((v.x i - v.a (pidx sm i)) / v.b (pidx ss i)) ^ 2 - 1) / v.b (pidx ss i))
    (hb1 : k.b ≠ .const → ss = false → ∀ i < n, seedOf calls .b i = seed * ((((v.x i - v.a (pidx sm i)) / v.b (pidx ss i)) ^ 2 - 1) / v.b (pidx ss i))) :
    SeedGradient k (sdim sm ss n) Adm (orNegInf (ScaleOk ss n) (normalLog sm ss n)) v seed calls := by
  refine elementwise (l := fun x a b => -(1 / 2) * ((x - a) / b) ^ 2 - Real.log b) hv (scaleOk_open sm ss n) (fun w hw => ?_) ?_ hx ha0 ha1 hb0 hb1
  · rw [orNegInf_pos hw, normalLog_eq hw]
  · intro i hi E _ _ X A B X' A' B' t e1 e2 e3 hX hA hB
    rw [← e1, ← e2, ← e3]
    exact normal_deriv hX hA hB (by rw [e3]; exact hv _ (pidx_lt hi))

theorem gradient_zero {k : Kinds} {dim : Slot → ℕ} {Adm : Args ℝ → Prop} {f : Args ℝ → ℝ} {v : Args ℝ} : SeedGradient k dim Adm f v 0 [] := by
  intro E _ _ V D t0 _ _ _ _
  have h : HasFDerivAt (fun _ : E => (0 : ℝ)) (0 : E →L[ℝ] ℝ) t0 := hasFDerivAt_const 0 t0
  refine (h.congr_fderiv ?_).congr_of_eventuallyEq (.of_forall fun t => by simp)
  simp [chain, seedOf]

theorem computes_of {N : StatNode ℝ} {k : Kinds} {dim : Slot → ℕ} {Adm : Args ℝ → Prop} {Hist : Args ℝ → List (Args ℝ) → Prop} {valid Smooth : Args ℝ → Prop}
    {logp : Args ℝ → ℝ} {Seeds : ℝ → Prop} (Ok : Args ℝ → Args ℝ → Prop) (hH : ∀ v0 h, Hist v0 h → ∀ w ∈ h, Ok v0 w)
    (Inv : Args ℝ → N.Cache → Prop) (hctor : ∀ v0, Adm v0 → ∃ c, N.ctor v0 = some c ∧ Inv v0 c)
    (hpos : ∀ v0 c v, Inv v0 c → Adm v → SameConsts k v0 v → Ok v0 v → valid v → ∃ c', N.feval c v = some (c', logp v) ∧ Inv v0 c' ∧ N.beval c' v 0 = [] ∧
      ∀ seed, seed ≠ 0 → Seeds seed → Smooth v → SeedGradient k dim Adm (orNegInf valid logp) v seed (N.beval c' v seed))
    (hneg : ∀ v0 c v, Inv v0 c → Adm v → SameConsts k v0 v → Ok v0 v → ¬ valid v → ∃ c', N.feval c v = some (c', negInf) ∧ Inv v0 c' ∧ ∀ seed, N.beval c' v seed = []) :
    Computes N k dim Adm Hist valid Smooth logp Seeds := by
  refine evaluates_of Ok hH Inv hctor fun v0 c v hI hA hc hO => ?_
  by_cases hv : valid v
  · obtain ⟨c', h1, h2, h3, h4⟩ := hpos v0 c v hI hA hc hO hv
    refine ⟨c', by rw [h1, orNegInf_pos hv], h2, fun seed hs => ⟨fun _ hsm => ?_, ?_⟩⟩
    · by_cases h0 : seed = 0
      · subst h0
        rw [h3]
        exact gradient_zero
      · exact h4 seed h0 hs hsm
    · rintro (h | rfl)
      · exact absurd hv h
      · exact h3
  · obtain ⟨c', h1, h2, h3⟩ := hneg v0 c v hI hA hc hO hv
    exact ⟨c', by rw [h1, orNegInf_neg hv], h2, fun seed hs => ⟨fun h => absurd h hv, fun _ => h3 seed⟩⟩

theorem not_scl {n : ℕ} {v : Args ℝ} (h : ¬ ScaleOk true n v) : Fn.ble (v.b 0) 0 = true := by
  rw [scaleOk_scl] at h
  simpa [Fn.ble] using h

theorem seed_ne {seed : ℝ} (h : seed ≠ 0) : Fn.beq seed 0 = false := by simp [Fn.beq, h]

theorem beq_self (x : ℝ) : Fn.beq x x = true := by simp [Fn.beq]

theorem normalSSS_computes (k : Kinds) : Computes (normalSSS k) k (sdim true true 1) (fun _ => True) (fun _ _ => True) (ScaleOk true 1) (fun _ => True)
    (normalLog true true 1) fun _ => True := by
  refine computes_of (fun _ _ => True) (by simp) (fun v0 (c : ℝ) => k.b = .const → c = Real.log (v0.b 0)) (fun v0 _ => ⟨_, rfl, fun h => ?_⟩) ?_ ?_
  · rw [isConst_iff.2 h]; rfl
  · intro v0 (c : ℝ) v hI _ hc _ hok
    have hs := (scaleOk_scl _ _).1 hok
    have hl : (if k.b.isConst then c else Fn.log (v.b 0)) = Real.log (v.b 0) := by
      by_cases hk : k.b = .const
      · rw [isConst_iff.2 hk, if_pos rfl, hI hk, show v.b = v0.b from hc .b hk]
      · rw [isConst_false hk]; rfl
    refine ⟨Real.log (v.b 0), ?_, fun hk => by rw [show v.b = v0.b from hc .b hk], by simp [normalSSS, beq_self], fun seed h0 _ _ => ?_⟩
    · simp only [normalSSS, ble_false hs, ret, Bool.false_eq_true, if_false]
      erw [hl]
      rw [normalLog_eq hok]
      simp [pidx, half_eq]
      ring
    · have := hs.ne'
      simp only [normalSSS, seed_ne h0, ble_false hs, Bool.or_self, Bool.false_eq_true, if_false]
      refine normal_gradient hok ?_ ?_ ?_ ?_ ?_ <;> intro hk <;> (try rw [isConst_false hk]) <;> simp [seedOf, pidx]
      · split <;> simp <;> field_simp <;> ring
      · split <;> simp <;> field_simp
      · field_simp
  · intro v0 c v hI _ hc _ hok
    exact ⟨c, by simp only [normalSSS, not_scl hok, if_true, ret], hI, fun seed => by simp only [normalSSS, not_scl hok, Bool.or_true, if_true]⟩

/-- sum of squares around `m` from mean and variance -/
theorem sum_sq_decomp {n : ℕ} (hn : 0 < n) (x : ℕ → ℝ) (m : ℝ) :
    ∑ i ∈ Finset.range n, (x i - m) ^ 2 = sqNorm n (fun i => x i - sumN n x / (n : ℝ)) + n * (m - sumN n x / (n : ℝ)) * (m - sumN n x / (n : ℝ)) := by
  have hn' : (n : ℝ) ≠ 0 := by positivity
  obtain ⟨μ, hμ⟩ : ∃ μ, μ = sumN n x / (n : ℝ) := ⟨_, rfl⟩
  have hs : ∑ i ∈ Finset.range n, x i = n * μ := by rw [hμ, sumN_eq]; field_simp
  rw [← hμ, sqNorm, sumN_eq]
  have h1 : ∀ i ∈ Finset.range n, (x i - m) ^ 2 = (x i - μ) * (x i - μ) + (μ - m) * (2 * x i - m - μ) := fun i _ => by ring
  rw [Finset.sum_congr rfl h1, Finset.sum_add_distrib, ← Finset.mul_sum, Finset.sum_sub_distrib, Finset.sum_sub_distrib, ← Finset.mul_sum, hs]
  simp
  ring

theorem sum_centered {n : ℕ} (hn : 0 < n) (x : ℕ → ℝ) (m : ℝ) : ∑ i ∈ Finset.range n, (x i - m) = n * (sumN n x / (n : ℝ) - m) := by
  have hn' : (n : ℝ) ≠ 0 := by positivity
  rw [Finset.sum_sub_distrib, sumN_eq]
  simp
  field_simp

theorem sum_normal_scl (n : ℕ) (f : ℕ → ℝ) (s : ℝ) : ∑ i ∈ Finset.range n, (-(1 / 2) * (f i / s) ^ 2 - Real.log s) =
    -(1 / 2) * ((∑ i ∈ Finset.range n, f i ^ 2) / (s * s)) - n * Real.log s := by
  rw [Finset.sum_sub_distrib, ← Finset.mul_sum, Finset.sum_div]
  simp [div_pow, ← sq]

theorem sum_normal_dscl (n : ℕ) (f : ℕ → ℝ) {s : ℝ} (hs : s ≠ 0) : ∑ i ∈ Finset.range n, ((f i / s) ^ 2 - 1) / s =
    ((∑ i ∈ Finset.range n, f i ^ 2) / (s * s) - n) * (1 / s) := by
  rw [← Finset.sum_div, Finset.sum_sub_distrib, Finset.sum_div]
  simp [div_pow, ← sq]
  rfl

theorem normalVSS_computes (k : Kinds) (n : ℕ) (hn : k.x = .const → 0 < n) : Computes (normalVSS k n) k (sdim true true n) (fun _ => True) (fun _ _ => True)
    (ScaleOk true n) (fun _ => True) (normalLog true true n) fun _ => True := by
  refine computes_of (fun _ _ => True) (by simp)
    (fun v0 (c : NormalVSSCache ℝ) => (k.b = .const → c.logSigma = Real.log (v0.b 0)) ∧
      (k.x = .const → c.xMean = sumN n v0.x / (n : ℝ) ∧ c.xVar = sqNorm n fun i => v0.x i - sumN n v0.x / (n : ℝ))) ?_ ?_ ?_
  · intro v0 _
    by_cases hx : k.x = .const
    · refine ⟨_, by simp only [normalVSS, isConst_iff.2 hx, (hn hx).ne', if_true, if_false]; rfl, fun h => ?_, fun _ => ⟨rfl, rfl⟩⟩
      simp [isConst_iff.2 h, Fn.log]
    · refine ⟨_, by simp only [normalVSS, isConst_false hx, Bool.false_eq_true, if_false]; rfl, fun h => ?_, fun h => absurd h hx⟩
      simp [isConst_iff.2 h, Fn.log]
  · intro v0 (c : NormalVSSCache ℝ) v hI _ hc _ hok
    have hs := (scaleOk_scl _ _).1 hok
    have hs' := hs.ne'
    obtain ⟨c1, hc1, e1, e2, e3, e4⟩ : ∃ c1 : NormalVSSCache ℝ, c1 = (if k.b.isConst then c else { c with logSigma := Fn.log (v.b 0) }) ∧ c1.logSigma = Real.log (v.b 0) ∧
        c1.xMean = c.xMean ∧ c1.xVar = c.xVar ∧ (k.b = .const → Real.log (v.b 0) = Real.log (v0.b 0)) := by
      refine ⟨_, rfl, ?_, ?_, ?_, fun hk => by rw [show v.b = v0.b from hc .b hk]⟩
      · by_cases hk : k.b = .const
        · rw [isConst_iff.2 hk, if_pos rfl, hI.1 hk, show v.b = v0.b from hc .b hk]
        · rw [isConst_false hk]; rfl
      · split <;> rfl
      · split <;> rfl
    by_cases hx : k.x = .const
    · have hxv : v.x = v0.x := hc .x hx
      obtain ⟨m1, m2⟩ := hI.2 hx
      have hsum : ∑ i ∈ Finset.range n, (v.x i - v.a 0) ^ 2 = c.xVar + n * (v.a 0 - c.xMean) * (v.a 0 - c.xMean) := by
        rw [m1, m2, ← hxv, sum_sq_decomp (hn hx)]
      refine ⟨c1, ?_, ⟨fun hk => by rw [e1, e4 hk], fun _ => ⟨by rw [e2, m1], by rw [e3, m2]⟩⟩, by simp [normalVSS, beq_self], fun seed h0 _ _ => ?_⟩
      · simp only [normalVSS, ble_false hs, ret, Bool.false_eq_true, if_false, isConst_iff.2 hx, if_true, ← hc1]
        rw [normalLog_eq hok, e1, e2, e3]
        simp only [pidx, if_true]
        rw [sum_normal_scl, hsum, half_eq]
        field_simp
      · simp only [normalVSS, seed_ne h0, ble_false hs, Bool.or_self, Bool.false_eq_true, if_false, isConst_iff.2 hx, if_true, e2, e3]
        refine normal_gradient hok (fun h => absurd hx h) ?_ (fun _ h => by cases h) ?_ (fun _ h => by cases h)
        · intro hk _
          simp only [pidx, if_true, ← Finset.sum_div]
          rw [sum_centered (hn hx), hxv, ← m1]
          split <;> simp [seedOf] <;> field_simp <;> simp
        · intro hk _
          simp only [pidx, if_true]
          rw [sum_normal_dscl _ _ hs', hsum, isConst_false hk]
          simp [seedOf]
          field_simp
          simp
    · refine ⟨{ c1 with zSq := sqNorm n (fun i => v.x i - v.a 0) / (v.b 0 * v.b 0) }, ?_, ⟨fun hk => by rw [e1, e4 hk], fun h => absurd h hx⟩, by simp [normalVSS, beq_self],
        fun seed h0 _ _ => ?_⟩
      · simp only [normalVSS, ble_false hs, ret, Bool.false_eq_true, if_false, isConst_false hx, ← hc1]
        rw [normalLog_eq hok, e1]
        simp only [pidx, if_true]
        rw [sum_normal_scl, half_eq, sqNorm, sumN_eq]
        simp [sq]
      · simp only [normalVSS, seed_ne h0, ble_false hs, Bool.or_self, Bool.false_eq_true, if_false, isConst_false hx]
        refine normal_gradient hok ?_ ?_ (fun _ h => by cases h) ?_ (fun _ h => by cases h)
        · intro hk i hi
          simp only [pidx, if_true]
          split <;> simp [seedOf] <;> field_simp <;> ring
        · intro hk _
          simp only [pidx, if_true, ← Finset.sum_div, sumN_eq]
          split <;> simp [seedOf] <;> field_simp <;> simp
        · intro hk _
          simp only [pidx, if_true]
          rw [sum_normal_dscl _ _ hs', isConst_false hk, sqNorm, sumN_eq]
          simp [seedOf, sq]
          ring
  · intro v0 c v hI _ hc _ hok
    exact ⟨c, by simp only [normalVSS, not_scl hok, if_true, ret], hI, fun seed => by simp only [normalVSS, not_scl hok, Bool.or_true, if_true]⟩

theorem normalVVS_computes (k : Kinds) (n : ℕ) : Computes (normalVVS k n) k (sdim false true n) (fun _ => True) (fun _ _ => True)
    (ScaleOk true n) (fun _ => True) (normalLog false true n) fun _ => True := by
  refine computes_of (fun _ _ => True) (by simp) (fun v0 (c : ℝ × ℝ) => k.b = .const → c.1 = Real.log (v0.b 0)) (fun v0 _ => ⟨_, rfl, fun h => ?_⟩) ?_ ?_
  · rw [isConst_iff.2 h]; rfl
  · intro v0 (c : ℝ × ℝ) v hI _ hc _ hok
    have hs := (scaleOk_scl _ _).1 hok
    have hs' := hs.ne'
    have hl : (if k.b.isConst then c.1 else Fn.log (v.b 0)) = Real.log (v.b 0) := by
      by_cases hk : k.b = .const
      · rw [isConst_iff.2 hk, if_pos rfl, hI hk, show v.b = v0.b from hc .b hk]
      · rw [isConst_false hk]; rfl
    refine ⟨(Real.log (v.b 0), sqNorm n (fun i => v.x i - v.a i) / (v.b 0 * v.b 0)), ?_, fun hk => by rw [show v.b = v0.b from hc .b hk], by simp [normalVVS, beq_self],
      fun seed h0 _ _ => ?_⟩
    · simp only [normalVVS, ble_false hs, ret, Bool.false_eq_true, if_false, hl]
      rw [normalLog_eq hok]
      simp only [pidx, if_true, Bool.false_eq_true, if_false]
      rw [sum_normal_scl, half_eq, sqNorm, sumN_eq]
      simp [sq]
    · simp only [normalVVS, seed_ne h0, ble_false hs, Bool.or_self, Bool.false_eq_true, if_false]
      refine normal_gradient hok ?_ (fun _ h => by cases h) ?_ ?_ (fun _ h => by cases h)
      · intro hk i hi
        simp only [pidx, if_true, Bool.false_eq_true, if_false]
        split <;> simp [seedOf] <;> field_simp <;> ring
      · intro hk _ i hi
        simp only [pidx, if_true, Bool.false_eq_true, if_false]
        split <;> simp [seedOf] <;> field_simp
      · intro hk _
        simp only [pidx, if_true, Bool.false_eq_true, if_false]
        rw [sum_normal_dscl _ _ hs', isConst_false hk, sqNorm, sumN_eq]
        simp [seedOf, sq]
        ring
  · intro v0 c v hI _ hc _ hok
    exact ⟨c, by simp only [normalVVS, not_scl hok, if_true, ret], hI, fun seed => by simp only [normalVVS, not_scl hok, Bool.or_true, if_true]⟩

theorem vecUpdate_pos {n : ℕ} {v : Args ℝ} (h : ScaleOk false n v) (ls : ℝ) : normalVecUpdate n v.b ls = (∑ i ∈ Finset.range n, Real.log (v.b i), true) := by
  rw [normalVecUpdate, if_pos ((allN_iff _ _).2 fun i hi => (blt_iff _ _).2 ((scaleOk_vec _ _).1 h i hi)), sumN_eq]
  rfl

theorem vecUpdate_neg {n : ℕ} {v : Args ℝ} (h : ¬ ScaleOk false n v) (ls : ℝ) : normalVecUpdate n v.b ls = (ls, false) := by
  rw [normalVecUpdate, if_neg fun h' => h ((scaleOk_vec _ _).2 fun i hi => (blt_iff _ _).1 ((allN_iff _ _).1 h' i hi))]

theorem normalVVV_computes (k : Kinds) (n : ℕ) : Computes (normalVVV k n) k (sdim false false n) (fun _ => True) (fun _ _ => True)
    (ScaleOk false n) (fun _ => True) (normalLog false false n) fun _ => True := by
  refine computes_of (fun _ _ => True) (by simp) (fun v0 (c : ℝ × Bool) => k.b = .const → c = normalVecUpdate n v0.b 0) (fun v0 _ => ⟨_, rfl, fun h => ?_⟩) ?_ ?_
  · rw [isConst_iff.2 h]; rfl
  · intro v0 (c : ℝ × Bool) v hI _ hc _ hok
    have hl : (if k.b.isConst then c else normalVecUpdate n v.b c.1) = (∑ i ∈ Finset.range n, Real.log (v.b i), true) := by
      by_cases hk : k.b = .const
      · rw [isConst_iff.2 hk, if_pos rfl, hI hk, ← show v.b = v0.b from hc .b hk, vecUpdate_pos hok]
      · rw [isConst_false hk, if_neg (by simp), vecUpdate_pos hok]
    refine ⟨(∑ i ∈ Finset.range n, Real.log (v.b i), true), ?_, fun hk => by rw [← show v.b = v0.b from hc .b hk, vecUpdate_pos hok], by simp [normalVVV, beq_self],
      fun seed h0 _ _ => ?_⟩
    · simp only [normalVVV, ret, hl, Bool.true_eq_false, if_false]
      rw [normalLog_eq hok]
      simp only [pidx, Bool.false_eq_true, if_false]
      rw [half_eq, sqNorm, sumN_eq, Finset.sum_sub_distrib, ← Finset.mul_sum]
      simp [sq]
    · simp only [normalVVV, seed_ne h0, Bool.not_true, Bool.or_self, Bool.false_eq_true, if_false]
      refine normal_gradient hok ?_ (fun _ h => by cases h) ?_ (fun _ h => by cases h) ?_
      · intro hk i hi
        have := ((scaleOk_vec _ _).1 hok i hi).ne'
        simp only [pidx, Bool.false_eq_true, if_false]
        split <;> simp [seedOf] <;> field_simp <;> ring
      · intro hk _ i hi
        have := ((scaleOk_vec _ _).1 hok i hi).ne'
        simp only [pidx, Bool.false_eq_true, if_false]
        split <;> simp [seedOf] <;> field_simp
      · intro hk _ i hi
        have := ((scaleOk_vec _ _).1 hok i hi).ne'
        simp only [pidx, Bool.false_eq_true, if_false]
        rw [isConst_false hk]
        simp [seedOf]
        field_simp
  · intro v0 (c : ℝ × Bool) v hI _ hc _ hok
    have hl : (if k.b.isConst then c else normalVecUpdate n v.b c.1).2 = false := by
      by_cases hk : k.b = .const
      · rw [isConst_iff.2 hk, if_pos rfl, hI hk, ← show v.b = v0.b from hc .b hk, vecUpdate_neg hok]
      · rw [isConst_false hk, if_neg (by simp), vecUpdate_neg hok]
    refine ⟨(if k.b.isConst then c else normalVecUpdate n v.b c.1), by simp only [normalVVV, hl, if_true, ret], fun hk => ?_, fun seed => by simp only [normalVVV, hl, Bool.not_false, Bool.or_true, if_true]⟩
    have h1 : (if k.b.isConst then c else normalVecUpdate n v.b c.1) = c := by rw [isConst_iff.2 hk, if_pos rfl]
    exact h1.trans (hI hk)

theorem normalVSV_computes (k : Kinds) (n : ℕ) : Computes (normalVSV k n) k (sdim true false n) (fun _ => True) (fun _ _ => True)
    (ScaleOk false n) (fun _ => True) (normalLog true false n) fun _ => True := by
  refine computes_of (fun _ _ => True) (by simp)
    (fun v0 (c : NormalVSVCache ℝ) => (k.b = .const → (c.logSigma, c.posDef) = normalVecUpdate n v0.b 0) ∧
      (k.x = .const → k.b = .const → c.sqTerm = sqNorm n (fun i => v0.x i / v0.b i) ∧ c.linTerm = sumN n (fun i => v0.x i / (v0.b i * v0.b i)) ∧
        c.constTerm = sqNorm n (fun i => 1 / v0.b i))) ?_ ?_ ?_
  · intro v0 _
    by_cases hk : k.b = .const
    · by_cases hx : k.x = .const
      · exact ⟨_, by simp only [normalVSV, isConst_iff.2 hx, isConst_iff.2 hk, if_true]; rfl, fun _ => rfl, fun _ _ => ⟨rfl, rfl, rfl⟩⟩
      · exact ⟨_, by simp only [normalVSV, isConst_false hx, isConst_iff.2 hk, if_true, Bool.false_eq_true, if_false]; rfl, fun _ => rfl, fun h => absurd h hx⟩
    · exact ⟨_, by simp only [normalVSV, isConst_false hk, Bool.false_eq_true, if_false]; rfl, fun h => absurd h hk, fun _ h => absurd h hk⟩
  · intro v0 (c : NormalVSVCache ℝ) v hI _ hc _ hok
    have hpos := (scaleOk_vec _ _).1 hok
    obtain ⟨c1, hc1, e1, e2, e3, e4, e5⟩ : ∃ c1 : NormalVSVCache ℝ, c1 = (if k.b.isConst then c else
          { c with logSigma := (normalVecUpdate n v.b c.logSigma).1, posDef := (normalVecUpdate n v.b c.logSigma).2 }) ∧
        c1.logSigma = ∑ i ∈ Finset.range n, Real.log (v.b i) ∧ c1.posDef = true ∧
        c1.sqTerm = c.sqTerm ∧ c1.linTerm = c.linTerm ∧ c1.constTerm = c.constTerm := by
      refine ⟨_, rfl, ?_⟩
      by_cases hk : k.b = .const
      · have := hI.1 hk
        rw [← show v.b = v0.b from hc .b hk, vecUpdate_pos hok] at this
        simp only [Prod.mk.injEq] at this
        simp [isConst_iff.2 hk, this]
      · simp [isConst_false hk, vecUpdate_pos hok]
    have hI' : (k.b = .const → (c1.logSigma, c1.posDef) = normalVecUpdate n v0.b 0) ∧
      (k.x = .const → k.b = .const → c1.sqTerm = sqNorm n (fun i => v0.x i / v0.b i) ∧ c1.linTerm = sumN n (fun i => v0.x i / (v0.b i * v0.b i)) ∧
        c1.constTerm = sqNorm n (fun i => 1 / v0.b i)) := by
      refine ⟨fun hk => ?_, fun hx hk => ?_⟩
      · rw [← show v.b = v0.b from hc .b hk, vecUpdate_pos hok, e1, e2]
      · rw [e3, e4, e5]; exact hI.2 hx hk
    refine ⟨c1, ?_, hI', by simp [normalVSV, beq_self], fun seed h0 _ _ => ?_⟩
    · simp only [normalVSV, ← hc1, e2, Bool.true_eq_false, if_false, ret]
      rw [normalLog_eq hok]
      simp only [pidx, Bool.false_eq_true, if_false, if_true]
      rw [Finset.sum_sub_distrib, ← Finset.mul_sum, half_eq, e1]
      by_cases hb : k.x = .const ∧ k.b = .const
      · obtain ⟨hx, hk⟩ := hb
        obtain ⟨f1, f2, f3⟩ := hI'.2 hx hk
        simp only [isConst_iff.2 hx, isConst_iff.2 hk, Bool.and_self, if_true]
        rw [f1, f2, f3, ← show v.b = v0.b from hc .b hk, ← show v.x = v0.x from hc .x hx]
        have : ∑ i ∈ Finset.range n, ((v.x i - v.a 0) / v.b i) ^ 2 = sqNorm n (fun i => v.x i / v.b i) -
            (1 + 1) * v.a 0 * sumN n (fun i => v.x i / (v.b i * v.b i)) + v.a 0 * v.a 0 * sqNorm n (fun i => 1 / v.b i) := by
          simp only [sqNorm, sumN_eq, Finset.mul_sum, ← Finset.sum_sub_distrib, ← Finset.sum_add_distrib]
          refine Finset.sum_congr rfl fun i hi => ?_
          have := (hpos i (Finset.mem_range.1 hi)).ne'
          field_simp
          ring
        rw [this]
      · have : (k.x.isConst && k.b.isConst) = false := by
          rw [← Bool.not_eq_true, Bool.and_eq_true, isConst_iff, isConst_iff]; exact hb
        simp only [this, Bool.false_eq_true, if_false, sqNorm, sumN_eq]
        simp [sq]
    · simp only [normalVSV, seed_ne h0, e2, Bool.not_true, Bool.or_self, Bool.false_eq_true, if_false]
      by_cases hb : k.x = .const ∧ k.b = .const
      · obtain ⟨hx, hk⟩ := hb
        obtain ⟨f1, f2, f3⟩ := hI'.2 hx hk
        simp only [isConst_iff.2 hx, isConst_iff.2 hk, Bool.and_self, if_true]
        refine normal_gradient hok (fun h => absurd hx h) ?_ (fun _ h => by cases h) (fun h => absurd hk h) (fun h => absurd hk h)
        intro _ _
        simp only [pidx, Bool.false_eq_true, if_false, if_true, seedOf, List.map_cons, List.map_nil, List.sum_cons, List.sum_nil, add_zero]
        rw [f2, f3, ← show v.b = v0.b from hc .b hk, ← show v.x = v0.x from hc .x hx]
        congr 1
        simp only [sqNorm, sumN_eq, Finset.mul_sum, ← Finset.sum_sub_distrib]
        refine Finset.sum_congr rfl fun i hi => ?_
        have := (hpos i (Finset.mem_range.1 hi)).ne'
        field_simp
      · have : (k.x.isConst && k.b.isConst) = false := by
          rw [← Bool.not_eq_true, Bool.and_eq_true, isConst_iff, isConst_iff]; exact hb
        simp only [this, Bool.false_eq_true, if_false]
        refine normal_gradient hok ?_ ?_ (fun _ h => by cases h) (fun _ h => by cases h) ?_
        · intro hk i hi
          have := (hpos i hi).ne'
          simp only [pidx, Bool.false_eq_true, if_false, if_true]
          split <;> simp [seedOf] <;> field_simp <;> ring
        · intro hk _
          simp only [pidx, Bool.false_eq_true, if_false, if_true, sumN_eq]
          split <;> simp [seedOf, sq]
        · intro hk _ i hi
          have := (hpos i hi).ne'
          simp only [pidx, Bool.false_eq_true, if_false, if_true]
          rw [isConst_false hk]
          simp [seedOf]
          field_simp
  · intro v0 (c : NormalVSVCache ℝ) v hI _ hc _ hok
    obtain ⟨c1, hc1, e2, hI'⟩ : ∃ c1 : NormalVSVCache ℝ, c1 = (if k.b.isConst then c else
          { c with logSigma := (normalVecUpdate n v.b c.logSigma).1, posDef := (normalVecUpdate n v.b c.logSigma).2 }) ∧ c1.posDef = false ∧
        (k.b = .const → c1 = c) := by
      refine ⟨_, rfl, ?_⟩
      by_cases hk : k.b = .const
      · have := hI.1 hk
        rw [← show v.b = v0.b from hc .b hk, vecUpdate_neg hok] at this
        simp only [Prod.mk.injEq] at this
        simp [isConst_iff.2 hk, this]
      · simp [isConst_false hk, vecUpdate_neg hok, hk]
    refine ⟨c1, by simp only [normalVSV, ← hc1, e2, if_true, ret], ⟨fun hk => ?_, fun hx hk => ?_⟩, fun seed => by simp only [normalVSV, e2, Bool.not_false, Bool.or_true, if_true]⟩
    · rw [hI' hk]; exact hI.1 hk
    · rw [hI' hk]; exact hI.2 hx hk

end

end FastAD
