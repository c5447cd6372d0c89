import Verif.Proof.RelateInside
import Verif.Proof.ApproxStat
import Verif.Proof.GenApi
import Verif.Proof.Session
import Verif.Proof.Deriv

/-!
# Values and adjoints computed in more and more precise arithmetics
-/

open Filter Topology

namespace FastAD

set_option linter.unusedSectionVars false

section pow
variable {α : Type} [Zero α] [One α] [Add α] [Sub α] [Neg α] [Mul α] [Div α] [NatCast α] [IntCast α] [Fn α] [HasInf α] [LinAlg α]
variable {ι : Type} {β : ι → Type} [∀ i, Zero (β i)] [∀ i, One (β i)] [∀ i, Add (β i)] [∀ i, Sub (β i)] [∀ i, Neg (β i)]
variable [∀ i, Mul (β i)] [∀ i, Div (β i)] [∀ i, NatCast (β i)] [∀ i, IntCast (β i)] [∀ i, Fn (β i)] [∀ i, HasInf (β i)] [∀ i, LinAlg (β i)]

theorem powNat_rel {R : α → (∀ i, β i) → Prop} (one : R 1 fun _ => 1) (mul : ∀ {x y c d}, R x c → R y d → R (x * y) fun i => c i * d i)
    {x : α} {c : ∀ i, β i} (hx : R x c) (n : ℕ) : R (powNat n x) fun i => powNat n (c i) := by
  induction n using Nat.strong_induction_on with
  | _ n ih =>
    by_cases h0 : n = 0
    · subst h0
      unfold powNat
      simpa using one
    · have e1 : powNat n x = if n % 2 = 0 then powNat (n / 2) x * powNat (n / 2) x else x * powNat (n - 1) x := by
        rw [powNat, dif_neg h0]
      have e2 : ∀ i, powNat n (c i) = if n % 2 = 0 then powNat (n / 2) (c i) * powNat (n / 2) (c i) else c i * powNat (n - 1) (c i) := by
        intro i; rw [powNat, dif_neg h0]
      simp only [e1, e2]
      by_cases h2 : n % 2 = 0
      · simp only [if_pos h2]
        exact mul (ih _ (by omega)) (ih _ (by omega))
      · simp only [if_neg h2]
        exact mul hx (ih _ (by omega))

end pow

variable [HasInf ℝ] [LinAlg ℝ]
variable {ι : Type} {φ : Filter ι} {F : ι → Type} [∀ i, Zero (F i)] [∀ i, One (F i)] [∀ i, Add (F i)] [∀ i, Sub (F i)] [∀ i, Neg (F i)]
variable [∀ i, Mul (F i)] [∀ i, Div (F i)] [∀ i, NatCast (F i)] [∀ i, IntCast (F i)] [∀ i, Fn (F i)] [∀ i, HasInf (F i)] [∀ i, LinAlg (F i)]
variable {val : ∀ i, F i → ℝ} {R : ℝ → (∀ i, F i) → Prop}

omit [HasInf ℝ] [LinAlg ℝ] in
theorem bools_real : Bools ℝ := by
  constructor <;> simp [Fn.beq, Fn.blt]

theorem Approx.un (h : Approx φ F R) {op : UOp} {x : ℝ} {a : ∀ i, F i} (hd : op.DomAt x) (ha : R x a) :
    R (op.fmap x) fun i => op.fmap (a i) := by
  cases op with
  | neg => exact h.neg ha
  | sin => exact h.sin ha
  | cos => exact h.cos ha
  | tan => exact h.tan hd ha
  | asin => exact h.asin hd.1 hd.2 ha
  | acos => exact h.acos hd.1 hd.2 ha
  | atan => exact h.atan ha
  | exp => exact h.exp ha
  | log => exact h.log hd ha
  | sqrt => exact h.sqrt hd ha
  | erf => exact h.erf ha
  | sigmoid => exact h.div (show 1 + Real.exp (-x) ≠ 0 by positivity) h.one (h.add h.one (h.exp (h.neg ha)))
  | sinh => exact h.sinh ha
  | cosh => exact h.cosh ha
  | tanh => exact h.tanh ha

theorem Approx.unb (h : Approx φ F R) {op : UOp} {x s : ℝ} {a σ : ∀ i, F i} (hd : op.DomAt x) (ha : R x a) (hs : R s σ) :
    R (op.bmap s x (op.fmap x)) fun i => op.bmap (σ i) (a i) (op.fmap (a i)) := by
  have hsq : -1 < x → x < 1 → 0 < 1 - x * x := fun h1 h2 => by nlinarith
  cases op with
  | neg => exact h.neg hs
  | sin => exact h.mul hs (h.cos ha)
  | cos => exact h.mul (h.neg hs) (h.sin ha)
  | tan => exact h.div (mul_ne_zero hd hd) hs (h.mul (h.cos ha) (h.cos ha))
  | asin => exact h.div (Real.sqrt_pos.2 (hsq hd.1 hd.2)).ne' hs (h.sqrt (hsq hd.1 hd.2) (h.sub h.one (h.mul ha ha)))
  | acos => exact h.neg (h.div (Real.sqrt_pos.2 (hsq hd.1 hd.2)).ne' hs (h.sqrt (hsq hd.1 hd.2) (h.sub h.one (h.mul ha ha))))
  | atan => exact h.div (by nlinarith) hs (h.add h.one (h.mul ha ha))
  | exp => exact h.mul hs (h.exp ha)
  | log => exact h.div (ne_of_gt hd) hs ha
  | sqrt => exact h.div (Real.sqrt_pos.2 hd).ne' (h.mul (h.div two_ne_zero h.one (by simpa using h.nat 2)) hs) (h.sqrt hd ha)
  | erf => exact h.mul (h.mul h.twoOverSqrtPi hs) (h.exp (h.mul (h.neg ha) ha))
  | sigmoid =>
    have he := h.exp (h.neg ha)
    exact h.div (show (Real.exp (-x) + 1) * (Real.exp (-x) + 1) ≠ 0 by positivity) (h.mul hs he) (h.mul (h.add he h.one) (h.add he h.one))
  | sinh => exact h.mul hs (h.cosh ha)
  | cosh => exact h.mul hs (h.sinh ha)
  | tanh => exact h.mul hs (h.sub h.one (h.mul (h.tanh ha) (h.tanh ha)))

theorem Approx.cmp_ne (h : Approx φ F R) {x y : ℝ} {a b : ∀ i, F i} (hne : x ≠ y) (ha : R x a) (hb : R y b) :
    ∀ᶠ i in φ, Fn.blt (a i) (b i) = Fn.blt x y ∧ Fn.blt (b i) (a i) = Fn.blt y x ∧
      Fn.ble (a i) (b i) = Fn.ble x y ∧ Fn.ble (b i) (a i) = Fn.ble y x ∧ Fn.beq (a i) (b i) = Fn.beq x y := by
  rcases lt_or_gt_of_ne hne with hl | hl
  · refine (h.cmp hl ha hb).mono fun i hi => ?_
    simp only [Fn.blt, Fn.ble, Fn.beq] at hi ⊢
    simp [hi, hl, hl.le, hl.ne, not_lt.2 hl.le, not_le.2 hl]
  · refine (h.cmp hl hb ha).mono fun i hi => ?_
    simp only [Fn.blt, Fn.ble, Fn.beq] at hi ⊢
    simp [hi, hl, hl.le, hl.ne', not_lt.2 hl.le, not_le.2 hl]

theorem Approx.ne_zero (h : Approx φ F R) {x : ℝ} {a : ∀ i, F i} (hx : x ≠ 0) (ha : R x a) : ∀ᶠ i in φ, Fn.beq (a i) 0 = false :=
  (h.cmp_ne hx ha h.zero).mono fun i hi => by rw [hi.2.2.2.2]; simp [Fn.beq, hx]

theorem Approx.related_plain (h : Approx φ F R) (hcongr : ∀ {x : ℝ} {c d : ∀ i, F i}, R x c → (∀ᶠ i in φ, c i = d i) → R x d) : Related φ plainDoms R where
  congr hc he := hcongr hc he
  zero := h.zero
  one := h.one
  add := h.add
  sub := h.sub
  mul := h.mul
  neg := h.neg
  div := h.div
  un := h.un
  unb := h.unb
  cmp := h.cmp_ne
  bools := .inr ⟨bools_real, h.bools⟩
  stat := .inl fun _ _ _ h => h
  fac {x _} hx ha := ⟨hx, by simpa [Fn.beq] using (show x ≠ 0 from hx), h.ne_zero hx ha⟩
  powf := by
    intro n x c hn hx
    by_cases h0 : 0 ≤ n
    · simp only [powFunc, if_pos h0]
      exact powNat_rel (R := R) h.one h.mul hx _
    · have hx0 : x ≠ 0 := by rcases hn with rfl | rfl | hn <;> [omega; omega; exact hn]
      have hb : Fn.beq x 0 = false := by simpa [Fn.beq] using hx0
      simp only [powFunc, if_neg h0, hb, Bool.false_eq_true, if_false]
      refine hcongr (powNat_rel (R := R) h.one h.mul (h.div hx0 h.one hx) _) ((h.ne_zero hx0 hx).mono fun i hi => ?_)
      simp only [hi, Bool.false_eq_true, if_false]
  powa := by
    intro n x c hn hx
    by_cases h0 : 0 ≤ n
    · have : ¬ n < 0 := by omega
      simp only [arrayPow, this, false_and, if_false]
      exact h.ipow hn hx
    · have hx0 : x ≠ 0 := by rcases hn with rfl | rfl | hn <;> [omega; omega; exact hn]
      have hb : Fn.beq x 0 = false := by simpa [Fn.beq] using hx0
      simp only [arrayPow, hb, Bool.false_eq_true, and_false, if_false]
      refine hcongr (h.ipow hn hx) ((h.ne_zero hx0 hx).mono fun i hi => ?_)
      simp only [hi, Bool.false_eq_true, and_false, if_false]
  pows := by
    intro n x c y d s σ h0 h1 hn hx hy hs
    have hx0 : x ≠ 0 := by rcases hn with rfl | rfl | hn <;> [exact absurd rfl h0; exact absurd rfl h1; exact hn]
    have hb : Fn.beq x 0 = false := by simpa [Fn.beq] using hx0
    by_cases hp : 1 < n
    · simp only [powSeed, if_pos hp, hb, Bool.false_eq_true, if_false]
      refine hcongr (h.mul (h.mul (h.int n) hs) (h.div hx0 hy hx)) ((h.ne_zero hx0 hx).mono fun i hi => ?_)
      simp only [hi, Bool.false_eq_true, if_false]
    · simp only [powSeed, if_neg hp, hb, Bool.false_eq_true, if_false]
      refine hcongr (h.div hx0 (h.mul (h.mul (h.int n) hs) hy) hx) ((h.ne_zero hx0 hx).mono fun i hi => ?_)
      simp only [hi, Bool.false_eq_true, if_false]

/-- with log-densities -/
theorem Approx.related (h : Approx φ F R) (hcongr : ∀ {x : ℝ} {c d : ∀ i, F i}, R x c → (∀ᶠ i in φ, c i = d i) → R x d)
    (hmix : ∀ {x : ℝ} {c d : ∀ i, F i} (p : ι → Bool), R x c → R x d → R x fun i => if p i = true then c i else d i) : Related φ realDoms R :=
  { h.related_plain hcongr with
    stat := .inr {
      node := h.node
      mix := hmix
      ne := fun {x c} hx hc => h.ne_zero (by simpa [Fn.beq] using hx) hc
      null := fun {e m seed a x} hwf hi h0 => by rw [gback_congr m e _ (fun _ => 0) hwf h0]; exact gback_null hwf hi a x } }

theorem Faithful.related (h : Faithful φ F val) : Related φ realDoms (Lim φ val) :=
  Approx.related h (fun hc he => hc.congr' (he.mono fun i hi => by rw [hi])) fun p hc hd => by
    have := Filter.Tendsto.if' (p := fun i => p i = true) hc hd
    refine this.congr fun i => ?_
    show _ = val i (if p i = true then _ else _)
    split <;> rfl

omit [HasInf ℝ] [LinAlg ℝ] in
/-- real arithmetic is faithful -/
theorem faithful_real (φ : Filter ι) : Faithful φ (fun _ => ℝ) (fun _ x => x) where
  zero := tendsto_const_nhds
  one := tendsto_const_nhds
  nat _ := tendsto_const_nhds
  int _ := tendsto_const_nhds
  add := Tendsto.add
  sub := Tendsto.sub
  mul := Tendsto.mul
  neg := Tendsto.neg
  div hy ha hb := Tendsto.div ha hb hy
  sin ha := (Real.continuous_sin.tendsto _).comp ha
  cos ha := (Real.continuous_cos.tendsto _).comp ha
  tan hx ha := ((Real.continuousAt_tan.2 hx).tendsto).comp ha
  asin _ _ ha := (Real.continuous_arcsin.tendsto _).comp ha
  acos _ _ ha := (Real.continuous_arccos.tendsto _).comp ha
  atan ha := (Real.continuous_arctan.tendsto _).comp ha
  exp ha := (Real.continuous_exp.tendsto _).comp ha
  log hx ha := ((Real.continuousAt_log hx.ne').tendsto).comp ha
  sqrt _ ha := (Real.continuous_sqrt.tendsto _).comp ha
  erf ha := ((hasDerivAt_realErf _).continuousAt.tendsto).comp ha
  sinh ha := (Real.continuous_sinh.tendsto _).comp ha
  cosh ha := (Real.continuous_cosh.tendsto _).comp ha
  tanh {x a} ha := by
    have : Continuous Real.tanh := by
      rw [show Real.tanh = fun x => Real.sinh x / Real.cosh x from funext Real.tanh_eq_sinh_div_cosh]
      exact Real.continuous_sinh.div Real.continuous_cosh fun x => (Real.cosh_pos x).ne'
    exact (this.tendsto _).comp ha
  ipow {n x a} hn ha := by
    refine Tendsto.comp (ContinuousAt.tendsto (f := fun x : ℝ => x ^ n) (continuousAt_zpow₀ x n ?_)) ha
    rcases hn with rfl | rfl | hn
    · exact .inr (by omega)
    · exact .inr (by omega)
    · exact .inl hn
  twoOverSqrtPi := tendsto_const_nhds
  cmp {x y a b} hxy ha hb := by
    have : ∀ᶠ i in φ, a i < b i := ha.eventually_lt hb hxy
    refine this.mono fun i hi => ?_
    simp [Fn.blt, Fn.ble, Fn.beq, hi, hi.le, hi.ne, hi.ne', not_lt.2 hi.le, not_le.2 hi]
  bools _ := bools_real

/-- node-by-node evaluation over the reals is the mathematical value -/
theorem exact_eq_denote {m : ℕ → ℝ} {D : Doms ℝ} {e : Expr ℝ} : e.WF → e.Inside D m → e.exact m = e.denote m := by
  have list : ∀ es : Exprs ℝ, (∀ e ∈ es.toList, e.WF → e.Inside D m → e.exact m = e.denote m) → es.WFs → es.Insides D m → es.exacts m = es.denotes m := by
    intro es
    induction es using Exprs.rec (motive_1 := fun _ => True) with
    | nil => intros; rfl
    | cons e es _ ih =>
      intro hP hwf hi
      simp only [Exprs.exacts, Exprs.denotes, hP e (by simp [Exprs.toList]) hwf.1 hi.1, ih (fun x hx => hP x (by simp [Exprs.toList, hx])) hwf.2 hi.2]
    | _ => trivial
  induction e using Expr.induct with
  | var | const | cview => intros; rfl
  | unary op e w ih => intro hwf hi; funext k; simp only [Expr.exact, Expr.denote, ih hwf.1 hi.1, UOp.fmap_eq]
  | binary op p q w ihl ihr => intro hwf hi; funext k; simp only [Expr.exact, Expr.denote, ihl hwf.1 hi.1, ihr hwf.2.1 hi.2.1, BOp.fmap_eq]
  | pow n e w ih => intro hwf hi; funext k; simp only [Expr.exact, Expr.denote, ih hwf.1 hi.1, powFunc_eq, arrayPow_eq, ite_self]
  | prodElem e w c ih => intro hwf hi; funext k; simp only [Expr.exact, Expr.denote, ih hwf.1 hi.1, prodN_eq]
  | transpose e w ih => intro hwf hi; funext k; simp only [Expr.exact, Expr.denote, ih hwf.1 hi]
  | dot p q w ihl ihr => intro hwf hi; funext k; simp only [Expr.exact, Expr.denote, ihl hwf.1 hi.1, ihr hwf.2.1 hi.2, sumN_eq]
  | sumIter es w ih =>
    intro hwf hi; funext k
    simp only [Expr.exact, Expr.denote, list es ih hwf.1 hi, List.sum_eq_foldl, List.foldl_map]
  | prodIter es w ih =>
    intro hwf hi; funext k
    simp only [Expr.exact, Expr.denote, list es ih hwf.1 hi.1, List.prod_eq_foldl, List.foldl_map]
  | reduce op es w ih =>
    intro hwf hi; funext k
    simp only [Expr.exact, Expr.denote, list es ih hwf.1 hi.1]
    rw [reduce_value hwf, Option.getD_some]
  | ifElse c p q w ihc iha ihb =>
    intro hwf hi; funext k
    have hb := hi.2.2
    simp only [Expr.exact, Expr.denote, ihc hwf.1 hi.1] at hb ⊢
    by_cases h0 : c.denote m 0 = 0
    · have ht : toBool (c.denote m 0) = false := by simp [toBool, Fn.beq, h0]
      rw [ht, if_neg Bool.false_ne_true] at hb
      rw [ht, if_neg Bool.false_ne_true, if_neg (not_not.2 h0)]
      rw [ihb hwf.2.2.1 hb]
    · have ht : toBool (c.denote m 0) = true := by simp [toBool, Fn.beq, h0]
      rw [ht, if_pos rfl] at hb
      rw [ht, if_pos rfl, if_pos h0]
      rw [iha hwf.2.1 hb]
  | eq | opEq | glue | forEach => exact fun h => h.elim

theorem exacts_eq_denotes {m : ℕ → ℝ} {D : Doms ℝ} {es : Exprs ℝ} : es.WFs → es.Insides D m → es.exacts m = es.denotes m := by
  induction es using Exprs.rec (motive_1 := fun _ => True) with
  | nil => intros; rfl
  | cons e es _ ih => intro hwf hi; simp only [Exprs.exacts, Exprs.denotes, exact_eq_denote hwf.1 hi.1, ih hwf.2 hi.2]
  | _ => trivial

theorem domsTo_real : DomsTo φ realDoms (fun _ => realDoms) (Lim φ (F := fun _ => ℝ) fun _ x => x) where
  un {op x c} hx hc := by
    have h := hc
    simp only [Lim] at h
    cases op <;> simp only [realDoms, UOp.DomAt] at hx ⊢
    case tan => exact ((Real.continuous_cos.tendsto _).comp h).eventually_ne hx
    case asin | acos => exact (h.eventually_const_lt hx.1).and (h.eventually_lt_const hx.2)
    case log | sqrt => exact h.eventually_const_lt hx
    all_goals exact .of_forall fun _ => trivial
  den hx hc := Tendsto.eventually_ne hc hx
  cmp {x y c d} hxy hc hd := by
    have : Tendsto (fun i => c i - d i) φ (𝓝 (x - y)) := Tendsto.sub hc hd
    exact (this.eventually_ne (sub_ne_zero.2 hxy)).mono fun i hi => sub_ne_zero.1 hi
  pow {n x c} hx hc := by
    rcases hx with h | h | h
    · exact .of_forall fun _ => .inl h
    · exact .of_forall fun _ => .inr (.inl h)
    · exact (Tendsto.eventually_ne hc h).mono fun _ hi => .inr (.inr hi)
  fac hx hc := Tendsto.eventually_ne hc hx
  stat {o n v V} hd hV := by
    obtain ⟨he, hval⟩ := hd
    have hs : ∀ {sc : Bool} {n : ℕ}, ScaleOk sc n v → ∀ᶠ i in φ, ScaleOk sc n (V i) := fun {sc n} h =>
      (Filter.eventually_all_finite (Set.finite_lt_nat (pdim sc n))).2 fun k hk => (hV .b k).eventually_const_lt (h k hk)
    have hr : ∀ {sa sb : Bool} {n : ℕ}, InRange sa sb n v → ∀ᶠ i in φ, InRange sa sb n (V i) := fun {sa sb n} h =>
      (Filter.eventually_all_finite (Set.finite_lt_nat n)).2 fun k hk => (Tendsto.eventually_lt (hV .a _) (hV .x _) (h k hk).1).and (Tendsto.eventually_lt (hV .x _) (hV .b _) (h k hk).2)
    cases o <;> simp only [StatOp.elementary, Bool.false_eq_true] at he
    case uniformSSS | uniformVec => exact (hr hval).mono fun i hi => ⟨rfl, hi⟩
    all_goals exact (hs hval).mono fun i hi => ⟨rfl, hi⟩

theorem inside_near {e : Expr ℝ} {m : ℕ → ℝ} {ρ : ι → ℕ → ℝ} (hwf : e.WF) (hi : e.Inside realDoms m) (hρ : ∀ a, Tendsto (fun x => ρ x a) φ (𝓝 (m a))) :
    ∀ᶠ x in φ, e.Inside realDoms (ρ x) := by
  have := related_inside (fun x => x) (fun _ x => x) (faithful_real φ).related domsTo_real (fun c => tendsto_const_nhds) (m := m) (m' := ρ) e hwf
    (by rwa [map_id]) (fun a _ => hρ a)
  simpa only [map_id] using this

/-- inside the domains an expression is differentiable -/
theorem inside_reg {E : Type} [NormedAddCommGroup E] [NormedSpace ℝ E] {ρ : E → ℕ → ℝ} {x0 : E} (hρ : ∀ a, Tendsto (fun x => ρ x a) (𝓝 x0) (𝓝 (ρ x0 a))) {e : Expr ℝ} :
    e.WF → e.Inside realDoms (ρ x0) → e.Reg ρ x0 := by
  have hcv : ∀ {e : Expr ℝ}, e.WF → e.Inside realDoms (ρ x0) → e.isCond = true → ∀ k < e.size, ∀ᶠ x in 𝓝 x0, e.denote (ρ x) k = e.denote (ρ x0) k := by
    intro e hwf hi hc k hk
    have := (related_exact (fun x => x) (fun (_ : E) x => x) (faithful_real (𝓝 x0)).related (fun c => tendsto_const_nhds) (m := ρ x0) (m' := ρ) e hwf
      (by rwa [map_id]) (fun a _ => hρ a) k hk).2 hc
    simp only [map_id] at this
    obtain ⟨b, h1, h2⟩ := this
    rw [← exact_eq_denote hwf hi, h1]
    filter_upwards [h2, inside_near hwf hi hρ] with x hx hx'
    rw [← exact_eq_denote hwf hx', hx]
  have list : ∀ es : Exprs ℝ, (∀ e ∈ es.toList, e.WF → e.Inside realDoms (ρ x0) → e.Reg ρ x0) → es.WFs → es.Insides realDoms (ρ x0) → es.Regs ρ x0 := by
    intro es
    induction es using Exprs.rec (motive_1 := fun _ => True) with
    | nil => intros; trivial
    | cons e es _ ih =>
      intro hP hwf hi
      exact ⟨hP e (by simp [Exprs.toList]) hwf.1 hi.1, ih (fun x hx => hP x (by simp [Exprs.toList, hx])) hwf.2 hi.2⟩
    | _ => trivial
  induction e using Expr.induct with
  | var | const | cview => intros; trivial
  | unary op e w ih =>
    intro hwf hi
    refine ⟨ih hwf.1 hi.1, ?_⟩
    rw [← exact_eq_denote hwf.1 hi.1]
    exact hi.2
  | binary op p q w ihl ihr =>
    intro hwf hi
    rw [Expr.Reg]
    by_cases hop : op.isComparison = true
    · rw [if_pos hop]
      exact hcv hwf hi hop
    · rw [if_neg hop]
      refine ⟨ihl hwf.1 hi.1, ihr hwf.2.1 hi.2.1, ?_⟩
      rintro rfl
      rw [← exact_eq_denote hwf.2.1 hi.2.1]
      exact hi.2.2
  | pow n e w ih =>
    intro hwf hi
    refine ⟨ih hwf.1 hi.1, fun hn k hk => ?_⟩
    rw [← exact_eq_denote hwf.1 hi.1]
    rcases hi.2 k hk with h | h | h
    · omega
    · omega
    · exact h
  | prodElem e w c ih => exact fun hwf hi => ih hwf.1 hi.1
  | transpose e w ih => exact fun hwf hi => ih hwf.1 hi
  | dot p q w ihl ihr => exact fun hwf hi => ⟨ihl hwf.1 hi.1, ihr hwf.2.1 hi.2⟩
  | sumIter es w ih => exact fun hwf hi => list es ih hwf.1 hi
  | prodIter es w ih => exact fun hwf hi => list es ih hwf.1 hi.1
  | reduce op es w ih =>
    intro hwf hi
    have hwf0 := hwf
    refine ⟨list es ih hwf.1 hi.1, ?_, ?_⟩
    · rcases hi.2 with rfl | rfl | ⟨o, k, n, v, rfl, -⟩ <;> exact fun _ _ => trivial
    · rcases hi.2 with rfl | rfl | ⟨o, k, n, v, rfl, hn, hd⟩
      · exact fun o k h => by cases h
      · exact fun o k h => by cases h
      · rintro o' k' h
        obtain ⟨rfl, rfl⟩ := RedOp.stat.inj h
        obtain ⟨-, -, ⟨e, rfl, h, -⟩ | ⟨o', k', h, hfit⟩⟩ := hwf
        · exact h.elim
        · obtain ⟨rfl, rfl⟩ := RedOp.stat.inj h
          rw [exacts_eq_denotes hwf0.1 hi.1] at hn
          obtain ⟨n', op, hop, rfl⟩ := hfit.ops
          have hden : ∀ x, (Exprs.ofList (o.slots.map op)).denotes (ρ x) = o.slots.map fun s => ((op s).shape, (op s).denote (ρ x)) := by
            intro x; rw [denotes_ofList, List.map_map]; rfl
          rw [hden, List.map_map, show (o.slots.map ((fun x : Shape × (ℕ → ℝ) => (x.1, trunc x.1.size x.2)) ∘ fun s => ((op s).shape, (op s).denote (ρ x0)))) =
            o.slots.map fun s => ((op s).shape, trunc (op s).shape.size ((op s).denote (ρ x0))) from rfl, statArgs_ops hop] at hn
          obtain ⟨rfl, rfl⟩ := Prod.mk.inj (Option.some.inj hn)
          refine ⟨n', fun x => opArgs o.discrete fun s => (op s).denote (ρ x), fun x => by simp only [hden, statArgs_ops hop], ?_⟩
          obtain ⟨he, hval⟩ := hd
          have hval' := (StatOp.Agree.of_trunc hop (ρ x0)).congr.1.1 hval
          cases o <;> simp only [StatOp.elementary, Bool.false_eq_true] at he <;>
            exact ⟨rfl, .of_forall fun _ => trivial, .inl ⟨hval', trivial⟩, fun h => by simp [StatOp.discrete] at h⟩
  | ifElse c p q w ihc iha ihb =>
    intro hwf hi
    obtain ⟨wfc, wfa, wfb, hkc, hic, hsa, hsb, -⟩ := hwf
    obtain ⟨ic, icc, ib⟩ := hi
    have h0 : 0 < c.size := by
      rw [show c.size = 1 from wfc.shapeOk.size_scl (by simp [Shape.isScl, hkc])]; exact Nat.one_pos
    refine ⟨(hcv wfc ic icc 0 h0).mono fun x hx => by rw [hx], ?_⟩
    rw [exact_eq_denote wfc ic] at ib
    by_cases hz : c.denote (ρ x0) 0 = 0
    · rw [show toBool (c.denote (ρ x0) 0) = false by simp [toBool, Fn.beq, hz], if_neg Bool.false_ne_true] at ib
      rw [if_neg (not_not.2 hz)]
      exact ihb wfb ib
    · rw [show toBool (c.denote (ρ x0) 0) = true by simp [toBool, Fn.beq, hz], if_pos rfl] at ib
      rw [if_pos hz]
      exact iha wfa ib
  | eq | opEq | glue | forEach => exact fun h => h.elim

/-- over the reals the reverse sweep adds the gradient -/
theorem gback_real {e : Expr ℝ} {vok aok : ℕ → Bool} {qv qa : ℕ} (hwf : e.WF) (hal : e.Alive vok aok)
    (hf : (∀ k < e.bindSize.val, vok (qv + k) = false) ∧ ∀ k < e.bindSize.adj, aok (qa + k) = false) (m seed : ℕ → ℝ) {a : ℕ} (ha : a ∈ e.adjCells) (x : ℝ) :
    e.gback m seed a x = x + e.grad m seed a := by
  have hf' : Fresh (⟨m, fun _ => x, vok, aok⟩ : St ℝ) e.bindSize qv qa := hf
  obtain ⟨s1, r1, h1⟩ := bindExpr_autodiff (s := ⟨m, fun _ => x, vok, aok⟩) (jv := 0) (ja := 0) hwf hal hf' seed
  have hv : ∀ a, vok a = true → ¬ (qv ≤ a ∧ a < qv + e.bindSize.val) := by
    rintro a ha ⟨h1, h2⟩
    have := hf.1 (a - qv) (by omega)
    rw [Nat.add_sub_cancel' h1, ha] at this
    cases this
  have hA : ∀ a, aok a = true → ¬ (qa ≤ a ∧ a < qa + e.bindSize.adj) := by
    rintro a ha ⟨h1, h2⟩
    have := hf.2 (a - qa) (by omega)
    rw [Nat.add_sub_cancel' h1, ha] at this
    cases this
  obtain ⟨s2, r2, h2⟩ := (bindExpr_bnd (s := ⟨m, fun _ => x, vok, aok⟩) (jv := 0) (ja := 0) hwf hal hf').gautodiff (m := m)
    (fun a ha => if_neg (hv a (reads_alive hal a ha))) seed
  have hok := adjCells_alive hal a ha
  have h3 : (s2, r2) = (s1, r1) := Option.some.inj (h2.run.symm.trans h1.run)
  have h4 := h2.adj a (by simpa [blockA, mem_rng, addr_some] using hA a hok)
  rw [show s2 = s1 from congrArg Prod.fst h3, h1.adj a hok] at h4
  rw [show (bindExpr e qv qa 0 0 (⟨m, fun _ => x, vok, aok⟩ : St ℝ)).2.adj a = x from if_neg (hA a hok)] at h4
  exact h4.symm

/-- values of arrays after the backward pass -/
theorem post_real [LawfulLinAlg] {e : Expr ℝ} {vok aok : ℕ → Bool} {qv qa : ℕ} (hwf : e.WF) (hal : e.Alive vok aok)
    (hf : (∀ k < e.bindSize.val, vok (qv + k) = false) ∧ ∀ k < e.bindSize.adj, aok (qa + k) = false) (m : ℕ → ℝ) (hs : e.shape.isScl ≠ true) {k : ℕ} (hk : k < e.size) :
    e.post m k = e.denote m k := by
  have hf' : Fresh (⟨m, fun _ => 0, vok, aok⟩ : St ℝ) e.bindSize qv qa := hf
  obtain ⟨s1, r1, h1⟩ := bindExpr_autodiff (s := ⟨m, fun _ => 0, vok, aok⟩) (jv := 0) (ja := 0) hwf hal hf' 0
  have hv : ∀ a ∈ e.reads, (bindExpr e qv qa 0 0 (⟨m, fun _ => 0, vok, aok⟩ : St ℝ)).2.val a = m a := by
    intro a ha
    refine if_neg ?_
    rintro ⟨h1, h2⟩
    have := hf.1 (a - qv) (by omega)
    rw [Nat.add_sub_cancel' h1, reads_alive hal a ha] at this
    cases this
  obtain ⟨s2, r2, h2⟩ := (bindExpr_bnd (s := ⟨m, fun _ => 0, vok, aok⟩) (jv := 0) (ja := 0) hwf hal hf').gautodiff hv 0
  have h3 : (s2, r2) = (s1, r1) := Option.some.inj (h2.run.symm.trans h1.run)
  have h4 := h2.value
  rw [show s2 = s1 from congrArg Prod.fst h3, show r2 = r1 from congrArg Prod.snd h3, h1.value, if_neg hs] at h4
  have := congrFun (Option.some.inj h4) k
  rw [trunc_of_lt hk, trunc_of_lt hk] at this
  exact this.symm

end FastAD
