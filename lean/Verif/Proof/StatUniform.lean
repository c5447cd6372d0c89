import Verif.Proof.StatCauchy

/-!
# Log-density nodes: uniform
-/

open scoped Real Topology
open ProbabilityTheory

namespace FastAD

noncomputable section

variable [HasInf ℝ]
set_option linter.unusedSectionVars false

/-- explicit form of the uniform log-density -/
theorem uniformLog_eq {sa sb : Bool} {n : ℕ} {v : Args ℝ} (h : InRange sa sb n v) :
    uniformLog sa sb n v = ∑ i ∈ Finset.range n, -Real.log (v.b (pidx sb i) - v.a (pidx sa i)) :=
  Finset.sum_congr rfl fun i hi => uniform_elem (h _ (Finset.mem_range.1 hi)).1 (h _ (Finset.mem_range.1 hi)).2

theorem uniform_gradient {k : Kinds} {sa sb : Bool} {n : ℕ} {Adm : Args ℝ → Prop} {v : Args ℝ} {seed : ℝ} {calls : List (Slot × (ℕ → ℝ))} (hv : InRange sa sb n v)
    (hx : ∀ i < n, seedOf calls .x i = 0)
    (ha0 : sa = true → seedOf calls .a 0 = seed * ∑ i ∈ Finset.range n, 1 / (v.b (pidx sb i) - v.a (pidx sa i)))
    (ha1 : sa = false → ∀ i < n, seedOf calls .a i = seed * (1 / (v.b (pidx sb i) - v.a (pidx sa i))))
    (hb0 : sb = true → seedOf calls .b 0 = seed * ∑ i ∈ Finset.range n, -1 / (v.b (pidx sb i) - v.a (pidx sa i)))
    (hb1 : sb = false → ∀ i < n, seedOf calls .b i = seed * (-1 / (v.b (pidx sb i) - v.a (pidx sa i)))) :
    SeedGradient k (sdim sa sb n) Adm (orNegInf (InRange sa sb n) (uniformLog sa sb n)) v seed calls := by
  refine elementwise (l := fun _ a b => -Real.log (b - a)) (dx := fun _ => 0) hv (inRange_open sa sb n) (fun w hw => ?_) ?_ (fun _ i hi => by rw [hx i hi, mul_zero])
    (fun _ => ha0) (fun _ => ha1) (fun _ => hb0) (fun _ => hb1)
  · rw [orNegInf_pos hw, uniformLog_eq hw]
  · intro i hi E _ _ X A B X' A' B' t e1 e2 e3 hX hA hB
    rw [← e2, ← e3, zero_smul, zero_add]
    exact uniform_deriv hA hB (by rw [e2, e3]; exact (hv i hi).1.trans (hv i hi).2)

theorem inRange_one (v : Args ℝ) : (Fn.blt (v.a 0) (v.x 0) && Fn.blt (v.x 0) (v.b 0)) = true ↔ InRange true true 1 v := by
  simp [InRange, pidx, blt_iff]

theorem uniformSSS_computes (k : Kinds) : Computes (uniformSSS k) k (sdim true true 1) (fun _ => True) (fun _ _ => True) (InRange true true 1) (fun _ => True)
    (uniformLog true true 1) fun _ => True := by
  refine computes_of (fun _ _ => True) (by simp) (fun v0 (c : ℝ) => k.a = .const → k.b = .const → c = Real.log (v0.b 0 - v0.a 0)) (fun v0 _ => ⟨_, rfl, fun h1 h2 => ?_⟩)
    ?_ ?_
  · rw [isConst_iff.2 h1, isConst_iff.2 h2]; rfl
  · intro v0 (c : ℝ) v hI _ hc _ hok
    have hr := (inRange_one v).2 hok
    have hl : (if k.a.isConst && k.b.isConst then c else Fn.log (v.b 0 - v.a 0)) = Real.log (v.b 0 - v.a 0) := by
      by_cases hk : k.a = .const ∧ k.b = .const
      · rw [isConst_iff.2 hk.1, isConst_iff.2 hk.2, Bool.and_self, if_pos rfl, hI hk.1 hk.2, show v.b = v0.b from hc .b hk.2, show v.a = v0.a from hc .a hk.1]
      · rw [if_neg (by rw [Bool.and_eq_true, isConst_iff, isConst_iff]; exact hk)]; rfl
    have hne : v.b 0 - v.a 0 ≠ 0 := by
      have := hok 0 one_pos
      simp [pidx] at this
      linarith [this.1, this.2]
    refine ⟨Real.log (v.b 0 - v.a 0), ?_, fun h1 h2 => by rw [show v.b = v0.b from hc .b h2, show v.a = v0.a from hc .a h1], by simp [uniformSSS, beq_self],
      fun seed h0 _ _ => ?_⟩
    · simp only [uniformSSS, hr, ret, if_true]
      erw [hl]
      rw [uniformLog_eq hok]
      simp [pidx]
    · simp only [uniformSSS, seed_ne h0, hr, Bool.not_true, Bool.or_self, Bool.false_eq_true, if_false]
      refine uniform_gradient hok ?_ ?_ ?_ ?_ ?_ <;> simp [seedOf, pidx] <;> field_simp
  · intro v0 (c : ℝ) v hI _ hc _ hok
    have hr : (Fn.blt (v.a 0) (v.x 0) && Fn.blt (v.x 0) (v.b 0)) = false := by rw [← Bool.not_eq_true, inRange_one]; exact hok
    refine ⟨(if k.a.isConst && k.b.isConst then c else Fn.log (v.b 0 - v.a 0) : ℝ), by simp only [uniformSSS, hr, ret, Bool.false_eq_true, if_false], fun h1 h2 => ?_,
      fun seed => by simp only [uniformSSS, hr, Bool.not_false, Bool.or_true, if_true]⟩
    have h3 : (if k.a.isConst && k.b.isConst then c else Fn.log (v.b 0 - v.a 0)) = c := by rw [isConst_iff.2 h1, isConst_iff.2 h2]; rfl
    exact h3.trans (hI h1 h2)

theorem lt_minCoeff (f : ℕ → ℝ) (m : ℕ) (a : ℝ) : a < minCoeff f m ↔ ∀ i < m + 1, a < f i := by
  induction m with
  | zero => simp [minCoeff]
  | succ m ih =>
    simp only [minCoeff, blt_iff, Nat.lt_succ_iff_lt_or_eq (n := m + 1), or_imp, forall_and, forall_eq, ← ih]
    split
    · rename_i h; exact ⟨fun h' => ⟨h'.trans h, h'⟩, fun h' => h'.2⟩
    · rename_i h; exact ⟨fun h' => ⟨h', lt_of_lt_of_le h' (not_lt.1 h)⟩, fun h' => h'.1⟩

theorem maxCoeff_lt (f : ℕ → ℝ) (m : ℕ) (a : ℝ) : maxCoeff f m < a ↔ ∀ i < m + 1, f i < a := by
  induction m with
  | zero => simp [maxCoeff]
  | succ m ih =>
    simp only [maxCoeff, blt_iff, Nat.lt_succ_iff_lt_or_eq (n := m + 1), or_imp, forall_and, forall_eq, ← ih]
    split
    · rename_i h; exact ⟨fun h' => ⟨h.trans h', h'⟩, fun h' => h'.2⟩
    · rename_i h; exact ⟨fun h' => ⟨h', lt_of_le_of_lt (not_lt.1 h) h'⟩, fun h' => h'.1⟩

/-- the cached checks are those of the operand values `v` -/
structure XOk (sa sb : Bool) (n : ℕ) (v : Args ℝ) (c : UniformCache ℝ) : Prop where
  mn : sa = true → c.xMin = minCoeff v.x (n - 1)
  mx : sb = true → c.xMax = maxCoeff v.x (n - 1)
  bl : sa = false → c.below = allN n fun i => Fn.blt (v.a i) (v.x i)
  ab : sb = false → c.above = allN n fun i => Fn.blt (v.x i) (v.b i)

theorem updateX_ok {sa sb ra rb : Bool} {n : ℕ} (hn : 0 < n) (hr : ((sa || ra) && (sb || rb)) = true) (c : UniformCache ℝ) (v : Args ℝ) :
    ∃ c', c.updateX sa sb ra rb n v = some c' ∧ XOk sa sb n v c' ∧ c'.logDiff = c.logDiff := by
  obtain ⟨m, rfl⟩ : ∃ m, n = m + 1 := ⟨n - 1, by omega⟩
  rw [UniformCache.updateX, if_pos hr]
  refine ⟨_, rfl, ⟨?_, ?_, ?_, ?_⟩, rfl⟩ <;> rintro rfl <;> simp

theorem within_iff {sa sb : Bool} {n : ℕ} (hn : (sa || sb) = true → 0 < n) {c : UniformCache ℝ} {v : Args ℝ} (h : XOk sa sb n v c) :
    c.within sa sb v = true ↔ InRange sa sb n v := by
  have h1 : (if sa then Fn.blt (v.a 0) c.xMin else c.below) = true ↔ ∀ i < n, v.a (pidx sa i) < v.x i := by
    cases sa
    · rw [if_neg (by simp), h.bl rfl, allN_iff]; simp [pidx, blt_iff]
    · rw [if_pos rfl, h.mn rfl, blt_iff, lt_minCoeff, Nat.sub_add_cancel (hn rfl)]; simp [pidx]
  have h2 : (if sb then Fn.blt c.xMax (v.b 0) else c.above) = true ↔ ∀ i < n, v.x i < v.b (pidx sb i) := by
    cases sb
    · rw [if_neg (by simp), h.ab rfl, allN_iff]; simp [pidx, blt_iff]
    · rw [if_pos rfl, h.mx rfl, blt_iff, maxCoeff_lt, Nat.sub_add_cancel (hn (by simp))]; simp [pidx]
  rw [UniformCache.within, Bool.and_eq_true, h1, h2]
  exact ⟨fun h i hi => ⟨h.1 i hi, h.2 i hi⟩, fun h => ⟨fun i hi => (h i hi).1, fun i hi => (h i hi).2⟩⟩

theorem XOk.transfer {sa sb : Bool} {n : ℕ} {v0 v : Args ℝ} {c : UniformCache ℝ} (h : XOk sa sb n v0 c) (hx : v.x = v0.x) (hs : sa = true ∧ sb = true ∨ ChecksAgree sa sb n v0 v) :
    XOk sa sb n v c := by
  refine ⟨fun e => by rw [hx, h.mn e], fun e => by rw [hx, h.mx e], fun e => ?_, fun e => ?_⟩
  · rcases hs with hs | hs
    · rw [hs.1] at e; cases e
    · rw [h.bl e, Bool.eq_iff_iff, allN_iff, allN_iff]; simpa [blt_iff] using hs.1 e
  · rcases hs with hs | hs
    · rw [hs.2] at e; cases e
    · rw [h.ab e, Bool.eq_iff_iff, allN_iff, allN_iff]; simpa [blt_iff] using hs.2 e

/-- what is known about the data members between calls -/
def UInv (sa sb : Bool) (k : Kinds) (n : ℕ) (v0 : Args ℝ) (c : UniformCache ℝ) : Prop :=
  (k.a = .const → k.b = .const → c.logDiff = uniformLogDiff sa sb n v0) ∧ (k.x = .const → (sa || sb) = true → XOk sa sb n v0 c)

theorem logDiff_eq {sa sb : Bool} {n : ℕ} {v0 v : Args ℝ} (h1 : v.a = v0.a) (h2 : v.b = v0.b) : uniformLogDiff sa sb n v = uniformLogDiff sa sb n v0 := by
  simp only [uniformLogDiff, h1, h2]

theorem uniform_step {sa sb : Bool} {k : Kinds} {n : ℕ} (hn : (sa || sb) = true → 0 < n) {v0 v : Args ℝ} {c : UniformCache ℝ} (hI : UInv sa sb k n v0 c)
    (hc : SameConsts k v0 v) (hO : k.x = .const → sa ≠ sb → ChecksAgree sa sb n v0 v) :
    ∃ c', (uniformVec sa sb k n).feval c v =
        (if c'.within sa sb v then ret c' (if sa && sb then -(n : ℝ) * c'.logDiff else -c'.logDiff) else ret c' negInf) ∧
      UInv sa sb k n v0 c' ∧ XOk sa sb n v c' ∧ c'.logDiff = uniformLogDiff sa sb n v := by
  obtain ⟨c1, e1, l1, i1⟩ : ∃ c1 : UniformCache ℝ, c1 = (if k.a.isConst && k.b.isConst then c else { c with logDiff := uniformLogDiff sa sb n v }) ∧
      c1.logDiff = uniformLogDiff sa sb n v ∧ ∀ v, XOk sa sb n v c → XOk sa sb n v c1 := by
    refine ⟨_, rfl, ?_, ?_⟩
    · by_cases hk : k.a = .const ∧ k.b = .const
      · rw [isConst_iff.2 hk.1, isConst_iff.2 hk.2, Bool.and_self, if_pos rfl, hI.1 hk.1 hk.2, logDiff_eq (hc .a hk.1) (hc .b hk.2)]
      · rw [if_neg (by rw [Bool.and_eq_true, isConst_iff, isConst_iff]; exact hk)]
    · intro v h
      split
      · exact h
      · exact ⟨h.mn, h.mx, h.bl, h.ab⟩
  have hdiff : ∀ c' : UniformCache ℝ, c'.logDiff = uniformLogDiff sa sb n v → k.a = .const → k.b = .const → c'.logDiff = uniformLogDiff sa sb n v0 :=
    fun c' h h1 h2 => by rw [h, logDiff_eq (hc .a h1) (hc .b h2)]
  by_cases hs : (sa || sb) = true
  · by_cases hx : k.x = .const
    · have h0 := i1 v0 (hI.2 hx hs)
      refine ⟨c1, ?_, ⟨hdiff _ l1, fun _ _ => h0⟩, h0.transfer (hc .x hx) ?_, l1⟩
      · simp only [uniformVec, hs, isConst_iff.2 hx, if_true, ← e1]; rfl
      · by_cases hab : sa = sb
        · subst hab; left; simpa using hs
        · exact Or.inr (hO hx hab)
    · obtain ⟨c2, h1, h2, h3⟩ := updateX_ok (sa := sa) (sb := sb) (ra := true) (rb := true) (hn hs) (by simp) c1 v
      refine ⟨c2, ?_, ⟨hdiff _ (h3.trans l1), fun h => absurd h hx⟩, h2, h3.trans l1⟩
      simp only [uniformVec, hs, isConst_false hx, if_true, ← e1, Bool.false_eq_true, if_false, h1]; rfl
  · refine ⟨{ c1 with below := allN n fun i => Fn.blt (v.a i) (v.x i), above := allN n fun i => Fn.blt (v.x i) (v.b i) }, ?_, ⟨hdiff _ l1, fun _ h => absurd h hs⟩,
      ⟨?_, ?_, fun _ => rfl, fun _ => rfl⟩, l1⟩
    · simp only [uniformVec, hs, Bool.false_eq_true, if_false, ← e1]; rfl
    · rintro rfl; simp at hs
    · rintro rfl; simp at hs

theorem uniformVec_computes (sa sb : Bool) (k : Kinds) (n : ℕ) (hn : (sa || sb) = true → 0 < n)
    (hr : k.x = .const → sa ≠ sb → (sa = false → k.a ≠ .node) ∧ (sb = false → k.b ≠ .node)) :
    Computes (uniformVec sa sb k n) k (sdim sa sb n) (fun _ => True) (fun v0 h => k.x = .const → sa ≠ sb → ∀ w ∈ h, ChecksAgree sa sb n v0 w) (InRange sa sb n)
      (fun _ => True) (uniformLog sa sb n) fun _ => True := by
  refine computes_of (fun v0 v => k.x = .const → sa ≠ sb → ChecksAgree sa sb n v0 v) (fun v0 h hh w hw h1 h2 => hh h1 h2 w hw) (UInv sa sb k n) ?_ ?_ ?_
  · intro v0 _
    obtain ⟨c, e, l⟩ : ∃ c : UniformCache ℝ, c = ⟨if k.a.isConst && k.b.isConst then uniformLogDiff sa sb n v0 else 0, 0, 0, false, false⟩ ∧
        (k.a = .const → k.b = .const → c.logDiff = uniformLogDiff sa sb n v0) :=
      ⟨_, rfl, fun h1 h2 => by simp [isConst_iff.2 h1, isConst_iff.2 h2]⟩
    by_cases hs : (sa || sb) = true ∧ k.x = .const
    · have hr' : ((sa || k.a.hasMemory) && (sb || k.b.hasMemory)) = true := by
        have mem : ∀ x : ArgKind, x ≠ .node → x.hasMemory = true := fun x hx => by cases x <;> simp [ArgKind.hasMemory] at hx ⊢
        cases sa <;> cases sb
        · simp at hs
        · simp [mem _ ((hr hs.2 (by simp)).1 rfl)]
        · simp [mem _ ((hr hs.2 (by simp)).2 rfl)]
        · rfl
      obtain ⟨c2, h1, h2, h3⟩ := updateX_ok (sa := sa) (sb := sb) (hn hs.1) hr' c v0
      refine ⟨c2, ?_, fun g1 g2 => h3.trans (l g1 g2), fun _ _ => h2⟩
      simp only [uniformVec, hs.1, isConst_iff.2 hs.2, Bool.and_self, if_true, ← e, h1]
    · refine ⟨c, ?_, l, fun h1 h2 => absurd ⟨h2, h1⟩ hs⟩
      have : ((sa || sb) && k.x.isConst) = false := by rw [← Bool.not_eq_true, Bool.and_eq_true, isConst_iff]; exact hs
      simp only [uniformVec, this, Bool.false_eq_true, if_false, ← e]
  · intro v0 (c : UniformCache ℝ) v hI _ hc hO hok
    obtain ⟨c', h1, h2, h3, h4⟩ := uniform_step hn hI hc hO
    have hw := (within_iff hn h3).2 hok
    have hd : ∀ i < n, v.b (pidx sb i) - v.a (pidx sa i) ≠ 0 := fun i hi => by linarith [(hok i hi).1, (hok i hi).2]
    refine ⟨c', ?_, h2, by simp [uniformVec, beq_self], fun seed h0 _ _ => ?_⟩
    · rw [h1, if_pos hw, uniformLog_eq hok, h4]
      refine congrArg (fun y => some (c', y)) ?_
      by_cases hs : (sa && sb) = true
      · obtain ⟨rfl, rfl⟩ := (Bool.and_eq_true _ _).mp hs
        simp [uniformLogDiff, pidx, Fn.log]
      · simp only [hs, uniformLogDiff, pidx, sumN_eq, Finset.sum_neg_distrib, Bool.false_eq_true, if_false]; rfl
    · by_cases hs : (sa && sb) = true
      · simp only [uniformVec, seed_ne h0, hw, Bool.not_true, Bool.or_self, Bool.false_eq_true, if_false, hs, if_true]
        obtain ⟨rfl, rfl⟩ := (Bool.and_eq_true _ _).mp hs
        refine uniform_gradient hok ?_ ?_ ?_ ?_ ?_
        · simp [seedOf]
        · simp [seedOf, pidx]; ring
        · intro h; cases h
        · simp [seedOf, pidx]; ring
        · intro h; cases h
      · simp only [uniformVec, seed_ne h0, hw, Bool.not_true, Bool.or_self, Bool.false_eq_true, if_false, hs, sumN_eq]
        refine uniform_gradient hok ?_ ?_ ?_ ?_ ?_
        · simp [seedOf]
        · rintro rfl; simp [seedOf, pidx]
        · rintro rfl i hi; simp [seedOf, pidx]; ring
        · rintro rfl; simp [seedOf, pidx, neg_div]
        · rintro rfl i hi; simp [seedOf, pidx]; ring
  · intro v0 (c : UniformCache ℝ) v hI _ hc hO hok
    obtain ⟨c', h1, h2, h3, h4⟩ := uniform_step hn hI hc hO
    have hw : c'.within sa sb v = false := by rw [← Bool.not_eq_true, within_iff hn h3]; exact hok
    refine ⟨c', by rw [h1, hw]; rfl, h2, fun seed => ?_⟩
    simp only [uniformVec, hw, Bool.not_false, Bool.or_true, if_true]

theorem Computes.hist {N : StatNode ℝ} {k : Kinds} {dim : Slot → ℕ} {Adm : Args ℝ → Prop} {Hist Hist' : Args ℝ → List (Args ℝ) → Prop} {valid Smooth : Args ℝ → Prop}
    {logp : Args ℝ → ℝ} {Seeds : ℝ → Prop} (h : Computes N k dim Adm Hist valid Smooth logp Seeds)
    (hh : ∀ v0 l, Hist' v0 l → (∀ w ∈ l, SameConsts k v0 w) → Hist v0 l) : Computes N k dim Adm Hist' valid Smooth logp Seeds :=
  fun v0 l v h1 h2 h3 => h v0 l v (hh v0 _ h1 fun w hw => (h2 w hw).2) h2 h3

end

end FastAD
