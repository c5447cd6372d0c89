import Verif.Proof.StatHistory
import Verif.Proof.StatGrad

/-!
# Constant operands whose data change

Constants which the constructor does not use are treated as variables.
-/

set_option linter.unusedSectionVars false

namespace FastAD

/-- a constant that is treated as a variable -/
def ArgKind.loose : ArgKind → ArgKind
  | .const => .leaf
  | k => k

/-- the operand types, with those constants that the constructor does not use treated as variables -/
def StatOp.relax (o : StatOp) (k : Kinds) : Kinds :=
  ⟨if o.keeps k .x then k.x else k.x.loose, if o.keeps k .a then k.a else k.a.loose, if o.keeps k .b then k.b else k.b.loose⟩

theorem ArgKind.isConst_iff {k : ArgKind} : k.isConst = true ↔ k = .const := by cases k <;> simp [ArgKind.isConst]

theorem StatOp.relax_const {o : StatOp} {k : Kinds} {s : Slot} (h : (o.relax k).get s = .const) : o.keeps k s = true := by
  by_contra hk
  cases s <;> simp only [relax, Kinds.get, hk, Bool.false_eq_true, if_false] at h <;> simp only [ArgKind.loose] at h <;> split at h <;> simp_all

section
variable {α : Type} [Zero α] [One α] [Add α] [Sub α] [Neg α] [Mul α] [Div α] [NatCast α]
variable [Fn α] [HasInf α] [LinAlg α]

theorem StatOp.relax_node (o : StatOp) (k : Kinds) (n : ℕ) : (o.node (o.relax k) n : StatNode α) = o.node k n := by
  obtain ⟨x, a, b⟩ := k
  cases o with
  | uniformVec sa sb => cases sa <;> cases sb <;> cases x <;> cases a <;> cases b <;> rfl
  | _ => cases x <;> cases a <;> cases b <;> rfl

theorem StatOp.relax_sound {o : StatOp} {k : Kinds} {n : ℕ} (hw : o ≠ .wishart) (hs : o.Sound k n) : o.Sound (o.relax k) n := by
  obtain ⟨x, a, b⟩ := k
  cases o with
  | uniformVec sa sb => cases sa <;> cases sb <;> cases x <;> cases a <;> cases b <;> simp [Sound, relax, keeps, ArgKind.isConst, ArgKind.loose] at hs ⊢ <;> exact hs
  | normalVSS => cases x <;> simp [Sound, relax, keeps, ArgKind.isConst, ArgKind.loose] at hs ⊢ <;> exact hs
  | wishart => exact (hw rfl).elim
  | _ => trivial

/-- **The history of a log-density node does not matter** as long as the constants which its constructor uses keep their values. -/
theorem stat_history_kept (o : StatOp) (k : Kinds) (n : ℕ) (hs : o.Sound k n) {v0 v : Args α} {h : List (Args α)}
    (hc : ∀ w ∈ v :: h, ∀ s, o.keeps k s = true → w.get s = v0.get s) :
    ∃ c c' d f, (o.node k n).run v0 h = some c ∧ (o.node k n).feval c v = some (c', f) ∧ (o.node k n).once v = some (d, f) ∧
      ∀ seed, (o.node k n).beval c' v seed = (o.node k n).beval d v seed := by
  rw [← o.relax_node k n]
  have hc' : ∀ w ∈ v :: h, SameConsts (o.relax k) v0 w := fun w hw s hs => hc w hw s (StatOp.relax_const hs)
  by_cases hw : o = .wishart
  · subst hw
    refine (forgets_wishart (StatOp.relax .wishart k) n fun hx => ?_).history hc'
    have := StatOp.relax_const (s := .x) hx
    have ha := hs.2 (ArgKind.isConst_iff.1 this)
    simp only [StatOp.relax, StatOp.keeps, ha, ArgKind.isConst, if_true]
  · exact stat_history_irrelevant o (o.relax k) n (StatOp.relax_sound hw hs) hc'

end

section
variable [HasInf ℝ] [LinAlg ℝ]

/-- the value of an evaluation at `v` after a construction at `v0` -/
noncomputable def StatNode.late (N : StatNode ℝ) (v0 v : Args ℝ) : Option ℝ := (N.ctor v0).bind fun c => (N.feval c v).map Prod.snd

/-- arguments with one coefficient per operand -/
def args1 (x a b : ℝ) : Args ℝ := ⟨fun _ => x, fun _ => a, fun _ => b⟩

omit [HasInf ℝ] [LinAlg ℝ] in
theorem sym1 (c : ℝ) : symMat 1 (trunc 1 fun _ => c) = Matrix.diagonal fun _ : Fin 1 => c := by
  ext i j
  obtain rfl := Subsingleton.elim i 0
  obtain rfl := Subsingleton.elim j 0
  simp [symMat, trunc]

theorem llt1 [LawfulLinAlg] {c : ℝ} (hc : 0 < c) : LinAlg.lltOk 1 (trunc 1 fun _ => c) = true ∧ LinAlg.lltDetL 1 (trunc 1 fun _ => c) = √c ∧
    LinAlg.symInv 1 (trunc 1 fun _ => c) 0 = c⁻¹ := by
  have h1 : LinAlg.lltOk 1 (trunc 1 fun _ => c) = true := by
    rw [LawfulLinAlg.lltOk_iff, sym1]
    exact Matrix.PosDef.diagonal fun _ => hc
  have h2 := LawfulLinAlg.lltDetL_sq _ _ h1
  have h3 := LawfulLinAlg.lltDetL_pos _ _ h1
  rw [sym1, Matrix.det_diagonal] at h2
  simp only [Finset.univ_unique, Finset.prod_const, Finset.card_singleton, pow_one] at h2
  refine ⟨h1, ?_, ?_⟩
  · conv_rhs => rw [← h2, Real.sqrt_mul_self h3.le]
  · have h4 := LawfulLinAlg.symInv_eq 1 (trunc 1 fun _ => c) (.inr h1) (by rw [sym1, Matrix.det_diagonal]; simpa using hc.ne')
    have h5 := congrFun (congrFun h4 0) 0
    rw [sym1] at h5
    have h6 : (Matrix.diagonal fun _ : Fin 1 => c)⁻¹ = Matrix.diagonal fun _ : Fin 1 => c⁻¹ := by
      apply Matrix.inv_eq_right_inv
      rw [Matrix.diagonal_mul_diagonal, ← Matrix.diagonal_one]
      congr 1
      funext i
      exact mul_inv_cancel₀ hc.ne'
    rw [h6] at h5
    simpa [toMat] using h5

/-- the data of a concrete counterexample: the value of the node is stale -/
def Stale (o : StatOp) (k : Kinds) (s : Slot) : Prop :=
  ∃ v0 v : Args ℝ, o.Adm 1 v0 ∧ o.Adm 1 v ∧ o.valid 1 v ∧ (∀ s' ≠ s, v.get s' = v0.get s') ∧
    ∃ c c' f, (o.node k 1).ctor v0 = some c ∧ (o.node k 1).feval c v = some (c', f) ∧ f ≠ o.logp 1 v

theorem stale_of [LawfulLinAlg] {o : StatOp} {k : Kinds} {s : Slot} {v0 v : Args ℝ} {f g : ℝ} (hs : o.Sound k 1) (h1 : (o.node k 1).late v0 v = some f) (h2 : (o.node k 1).late v v = some g) (hfg : f ≠ g)
    (ha0 : o.Adm 1 v0) (ha : o.Adm 1 v) (hv : o.valid 1 v) (hne : ∀ s' ≠ s, v.get s' = v0.get s') : Stale o k s := by
  refine ⟨v0, v, ha0, ha, hv, hne, ?_⟩
  obtain ⟨c, hc, h1⟩ := Option.bind_eq_some_iff.1 h1
  obtain ⟨⟨c', f'⟩, hf, rfl⟩ := Option.map_eq_some_iff.1 h1
  obtain ⟨d, hd, h2⟩ := Option.bind_eq_some_iff.1 h2
  obtain ⟨⟨d', g'⟩, hg, rfl⟩ := Option.map_eq_some_iff.1 h2
  obtain ⟨e, he⟩ := o.once_eq k 1 hs v
  rw [StatNode.once, hd, Option.bind_eq_bind, Option.bind_some, hg, Option.some_inj] at he
  refine ⟨c, c', f', hc, hf, fun h => hfg ?_⟩
  rw [congrArg Prod.snd he, StatOp.real_eq o 1 v ha, orNegInf, if_pos hv, ← h]

omit [HasInf ℝ] [LinAlg ℝ] in
theorem ne1 {x a b x' a' b' : ℝ} {s : Slot} (hx : s ≠ .x → x' = x) (ha : s ≠ .a → a' = a) (hb : s ≠ .b → b' = b) :
    ∀ s' ≠ s, (args1 x' a' b').get s' = (args1 x a b).get s' := by
  intro s' hs
  cases s'
  · simp only [args1, Args.get, hx (Ne.symm hs)]
  · simp only [args1, Args.get, ha (Ne.symm hs)]
  · simp only [args1, Args.get, hb (Ne.symm hs)]

local macro "late" : tactic => `(tactic|
  simp [*, StatNode.late, StatOp.node, args1, normalVSS, normalVSV, normalVVV, normalMat, uniformVec, bernoulliVS, bernoulliVV, wishart, ArgKind.isConst, sqNorm, sumN, normalVecUpdate, allN, Fn.blt, Fn.ble, Fn.beq, Fn.log, ret, half,
    UniformCache.updateX, UniformCache.within, uniformLogDiff, minCoeff, maxCoeff, negInf, ArgKind.hasMemory, bernoulliIn, bernoulliUpdate, zeroOneN, bernoulliLoop,
    NormalMatCache.update, WishartCache.updateV, WishartCache.updateX, WishartCache.valid, mul2])

local macro "same1" : tactic => `(tactic| exact ne1 (by simp) (by simp) (by simp))
local macro "valid1" : tactic => `(tactic| simp [*, StatOp.valid, ScaleOk, pdim, args1, InRange, pidx, MassPos, bernoulliMass])

omit [HasInf ℝ] [LinAlg ℝ] in
theorem log2 : Real.log 2 ≠ 0 := (Real.log_pos (by norm_num)).ne'

omit [HasInf ℝ] [LinAlg ℝ] in
theorem toMat1 (c : ℝ) : toMat 1 (fun _ => c) = Matrix.diagonal fun _ : Fin 1 => c := by
  ext i j
  obtain rfl := Subsingleton.elim i 0
  obtain rfl := Subsingleton.elim j 0
  simp [toMat]

omit [HasInf ℝ] [LinAlg ℝ] in
theorem symm1 (c : ℝ) : (toMat 1 fun _ => c).IsSymm := by rw [toMat1]; exact Matrix.isSymm_diagonal _

omit [HasInf ℝ] [LinAlg ℝ] in
theorem posDef1 {c : ℝ} (hc : 0 < c) : (toMat 1 fun _ => c).PosDef := by rw [toMat1]; exact Matrix.PosDef.diagonal fun _ => hc

omit [LinAlg ℝ] in
/-- a positive number whose logarithm is not "infinity" -/
theorem exists_log_ne : ∃ B : ℝ, 1 < B ∧ HasInf.inf ≠ Real.log B := by
  by_cases h : HasInf.inf = Real.log 2
  · refine ⟨3, by norm_num, fun h' => ?_⟩
    exact absurd (Real.log_injOn_pos (by simp) (by simp) (h.symm.trans h')) (by norm_num)
  · exact ⟨2, by norm_num, h⟩

theorem not_followed [LawfulLinAlg] (o : StatOp) (k : Kinds) (s : Slot) (hs : o.Sound k 1) (hk : o.keeps k s = true) (ha : (o.shape 1 s).isScl = false) : Stale o k s := by
  obtain ⟨x, a, b⟩ := k
  have z0 : ¬ (1 : ℝ) ≤ 0 := by norm_num
  have z1 : ¬ (2 : ℝ) ≤ 0 := by norm_num
  cases o with
  | normalSSS | cauchySSS | uniformSSS | bernoulliSS => simp [StatOp.shape, Shape.isScl, Shape.scl] at ha
  | cauchyScl | cauchyVec => simp [StatOp.keeps] at hk
  | normalVVS => cases s <;> simp [StatOp.keeps, StatOp.shape, parShape, Shape.isScl, Shape.scl] at hk ha
  | normalVSS =>
    cases s <;> simp [StatOp.keeps, StatOp.shape, parShape, Shape.isScl, Shape.scl, ArgKind.isConst_iff] at hk ha
    subst hk
    refine stale_of (v0 := args1 0 0 1) (v := args1 1 0 1) (f := 0) (g := -(1 / 2)) hs ?_ ?_ (by norm_num) trivial trivial (by valid1) (by same1)
    · cases b <;> late
    · cases b <;> late <;> norm_num
  | normalVSV =>
    cases s <;> simp [StatOp.keeps, StatOp.shape, parShape, Shape.isScl, Shape.scl, ArgKind.isConst_iff] at hk ha
    · obtain ⟨rfl, rfl⟩ := hk
      refine stale_of (v0 := args1 0 0 1) (v := args1 1 0 1) (f := 0) (g := -(1 / 2)) hs ?_ ?_ (by norm_num) trivial trivial (by valid1) (by same1)
      · late
      · late <;> norm_num
    · subst hk
      refine stale_of (v0 := args1 0 0 1) (v := args1 0 0 2) (f := 0) (g := -Real.log 2) hs ?_ ?_ (by simpa using log2) trivial trivial (by valid1) (by same1)
      · cases x <;> late
      · cases x <;> late
  | normalVVV =>
    cases s <;> simp [StatOp.keeps, StatOp.shape, parShape, Shape.isScl, Shape.scl, ArgKind.isConst_iff] at hk ha
    subst hk
    refine stale_of (v0 := args1 0 0 1) (v := args1 0 0 2) (f := 0) (g := -Real.log 2) hs ?_ ?_ (by simpa using log2) trivial trivial (by valid1) (by same1)
    · late
    · late
  | normalMat sm =>
    cases s <;> simp [StatOp.keeps, StatOp.shape, parShape, Shape.isScl, Shape.scl, ArgKind.isConst_iff] at hk ha
    subst hk
    have h1 := llt1 (c := 1) (by norm_num)
    have h4 := llt1 (c := 4) (by norm_num)
    refine stale_of (v0 := args1 0 0 1) (v := args1 0 0 4) (f := 0) (g := -Real.log √4) hs ?_ ?_ ?_ ?_ ?_ ?_ (by same1)
    · late
    · late
    · have : Real.log √4 ≠ 0 := by rw [Real.log_sqrt (by norm_num)]; have := Real.log_pos (show (1 : ℝ) < 4 by norm_num); positivity
      simpa using this
    · exact symm1 _
    · exact symm1 _
    · exact posDef1 (c := 4) (by norm_num)
  | uniformVec sa sb =>
    obtain ⟨B, hB, hi⟩ := exists_log_ne
    have b0 : (0 : ℝ) < B := by linarith
    have b9 : ¬ B < 1 := by linarith
    have b1 : ¬ B + 1 < B := by linarith
    have b2 : ¬ (1 : ℝ) < 1 := by norm_num
    have b3 : ¬ (1 : ℝ) < 0 := by norm_num
    have b4 : ¬ (2 : ℝ) < 1 := by norm_num
    have ne : -(HasInf.inf : ℝ) ≠ -Real.log B := by simpa using hi
    have l2 : -Real.log 2 ≠ 0 := by rw [ne_eq, neg_eq_zero]; exact log2
    have h32 : (1 : ℝ) < 3 / 2 := by norm_num
    have h23 : (3 / 2 : ℝ) < 2 := by norm_num
    have h30 : (0 : ℝ) < 3 / 2 := by norm_num
    have h12 : (1 / 2 : ℝ) < 1 := by norm_num
    have h22 : (1 / 2 : ℝ) < 2 := by norm_num
    have i12 : (2⁻¹ : ℝ) < 1 := by norm_num
    have i22 : (2⁻¹ : ℝ) < 2 := by norm_num
    have t2 : (1 : ℝ) < 2 := by norm_num
    have e2 : (2 : ℝ) - 1 = 1 := by norm_num
    have e3 : (1 : ℝ) + 1 = 2 := by norm_num
    have p2 : (0 : ℝ) < 2 := by norm_num
    cases s with
    | x =>
      have hx : x = .const := ArgKind.isConst_iff.1 (by simp [StatOp.keeps] at hk; exact hk.2)
      subst hx
      refine stale_of (v0 := args1 (B + 1) 0 B) (v := args1 1 0 B) (f := -HasInf.inf) (g := -Real.log B) hs ?_ ?_ ne trivial trivial (by valid1) (by same1)
      · cases sa <;> cases sb <;> cases a <;> cases b <;> first | (exfalso; simp [StatOp.keeps, StatOp.Sound, StatOp.shape, parShape, Shape.isScl, Shape.scl, ArgKind.isConst] at hk hs ha; done) | late
      · cases sa <;> cases sb <;> cases a <;> cases b <;> first | (exfalso; simp [StatOp.keeps, StatOp.Sound, StatOp.shape, parShape, Shape.isScl, Shape.scl, ArgKind.isConst] at hk hs ha; done) | late
    | a =>
      have hx : a = .const := ArgKind.isConst_iff.1 (by simp [StatOp.keeps] at hk; exact hk.1)
      subst hx
      by_cases hb : b = .const
      · subst hb
        refine stale_of (v0 := args1 (3 / 2) 0 2) (v := args1 (3 / 2) 1 2) (f := -Real.log 2) (g := 0) hs ?_ ?_ l2 trivial trivial (by valid1) (by same1)
        · cases sa <;> cases sb <;> cases x <;> first | (exfalso; simp [StatOp.keeps, StatOp.Sound, StatOp.shape, parShape, Shape.isScl, Shape.scl, ArgKind.isConst] at hk hs ha; done) | late
        · cases sa <;> cases sb <;> cases x <;> first | (exfalso; simp [StatOp.keeps, StatOp.Sound, StatOp.shape, parShape, Shape.isScl, Shape.scl, ArgKind.isConst] at hk hs ha; done) | late
      · refine stale_of (v0 := args1 1 B B) (v := args1 1 0 B) (f := -HasInf.inf) (g := -Real.log B) hs ?_ ?_ ne trivial trivial (by valid1) (by same1)
        · cases sa <;> cases sb <;> cases x <;> cases b <;> first | exact absurd rfl hb | (exfalso; simp [StatOp.keeps, StatOp.Sound, StatOp.shape, parShape, Shape.isScl, Shape.scl, ArgKind.isConst] at hk hs ha; done) | late
        · cases sa <;> cases sb <;> cases x <;> cases b <;> first | exact absurd rfl hb | (exfalso; simp [StatOp.keeps, StatOp.Sound, StatOp.shape, parShape, Shape.isScl, Shape.scl, ArgKind.isConst] at hk hs ha; done) | late
    | b =>
      have hx : b = .const := ArgKind.isConst_iff.1 (by simp [StatOp.keeps] at hk; exact hk.1)
      subst hx
      by_cases hb : a = .const
      · subst hb
        refine stale_of (v0 := args1 (1 / 2) 0 2) (v := args1 (1 / 2) 0 1) (f := -Real.log 2) (g := 0) hs ?_ ?_ l2 trivial trivial (by valid1) (by same1)
        · cases sa <;> cases sb <;> cases x <;> first | (exfalso; simp [StatOp.keeps, StatOp.Sound, StatOp.shape, parShape, Shape.isScl, Shape.scl, ArgKind.isConst] at hk hs ha; done) | late
        · cases sa <;> cases sb <;> cases x <;> first | (exfalso; simp [StatOp.keeps, StatOp.Sound, StatOp.shape, parShape, Shape.isScl, Shape.scl, ArgKind.isConst] at hk hs ha; done) | late
      · refine stale_of (v0 := args1 1 0 0) (v := args1 1 0 B) (f := -HasInf.inf) (g := -Real.log B) hs ?_ ?_ ne trivial trivial (by valid1) (by same1)
        · cases sa <;> cases sb <;> cases x <;> cases a <;> first | exact absurd rfl hb | (exfalso; simp [StatOp.keeps, StatOp.Sound, StatOp.shape, parShape, Shape.isScl, Shape.scl, ArgKind.isConst] at hk hs ha; done) | late
        · cases sa <;> cases sb <;> cases x <;> cases a <;> first | exact absurd rfl hb | (exfalso; simp [StatOp.keeps, StatOp.Sound, StatOp.shape, parShape, Shape.isScl, Shape.scl, ArgKind.isConst] at hk hs ha; done) | late
  | bernoulliVS =>
    cases s <;> simp [StatOp.keeps, StatOp.shape, parShape, Shape.isScl, Shape.scl, ArgKind.isConst_iff] at hk ha
    subst hk
    have p3 : (3 : ℝ)⁻¹ < 1 := by norm_num
    refine stale_of (v0 := args1 0 3⁻¹ 0) (v := args1 1 3⁻¹ 0) (f := Real.log (1 - 3⁻¹)) (g := Real.log 3⁻¹) hs ?_ ?_ ?_ trivial trivial (by valid1) (by same1)
    · cases a <;> late
    · cases a <;> late
    · intro h
      exact absurd (Real.log_injOn_pos (by norm_num) (by norm_num) h) (by norm_num)
  | bernoulliVV =>
    cases s <;> simp [StatOp.keeps, StatOp.shape, parShape, Shape.isScl, Shape.scl, ArgKind.isConst_iff] at hk ha
    · subst hk
      obtain ⟨B, hB, hi⟩ := exists_log_ne
      have b0 : (0 : ℝ) < B := by linarith
      have b1 : B⁻¹ < 1 := inv_lt_one_of_one_lt₀ hB
      have ne : -(HasInf.inf : ℝ) ≠ -Real.log B := by simpa using hi
      refine stale_of (v0 := args1 2 B⁻¹ 0) (v := args1 1 B⁻¹ 0) (f := -HasInf.inf) (g := -Real.log B) hs ?_ ?_ ne trivial trivial (by valid1) (by same1)
      · cases a <;> late
      · cases a <;> late
    · subst hk
      have p3 : (2 : ℝ)⁻¹ < 1 := by norm_num
      refine stale_of (v0 := args1 1 2⁻¹ 0) (v := args1 1 2 0) (f := Real.log 2) (g := 0) hs ?_ ?_ log2 trivial trivial (by valid1) (by same1)
      · cases x <;> late
      · cases x <;> late
  | wishart =>
    have h1 := llt1 (c := 1) (by norm_num)
    have h4 := llt1 (c := 4) (by norm_num)
    cases s with
    | x =>
      have hx : x = .const := by simpa [StatOp.keeps, ArgKind.isConst_iff] using hk
      subst hx
      obtain rfl : a = .const := hs.2 rfl
      refine stale_of (v0 := args1 1 1 2) (v := args1 4 1 2) (f := -(1 / 2)) (g := -2) hs ?_ ?_ ?_ ⟨symm1 _, symm1 _⟩ ⟨symm1 _, symm1 _⟩ ?_ (by same1)
      · late
        norm_num
      · late
        norm_num
      · norm_num
      · exact ⟨posDef1 (c := 4) (by norm_num), posDef1 (c := 1) (by norm_num), by norm_num [args1]⟩
    | a =>
      have hx : a = .const := by simpa [StatOp.keeps, ArgKind.isConst_iff] using hk
      subst hx
      refine stale_of (v0 := args1 1 1 2) (v := args1 1 4 2) (f := -(1 / 2)) (g := -(1 / 8) - 2 * Real.log √4) hs ?_ ?_ ?_ ⟨symm1 _, symm1 _⟩ ⟨symm1 _, symm1 _⟩ ?_ (by same1)
      · cases x <;> late <;> norm_num
      · cases x <;> late <;> norm_num
      · rw [Real.log_sqrt (by norm_num)]
        have := Real.one_sub_inv_le_log_of_pos (show (0 : ℝ) < 4 by norm_num)
        norm_num at this
        intro h
        linarith
      · exact ⟨posDef1 (c := 1) (by norm_num), posDef1 (c := 4) (by norm_num), by norm_num [args1]⟩
    | b => simp [StatOp.keeps] at hk

end

end FastAD
