import Verif.Proof.RelateStat
import Verif.Proof.Deriv

/-!
# Log-densities in approximate arithmetics
-/

open Filter Topology

namespace FastAD

set_option linter.unusedSectionVars false

variable [HasInf ℝ] [LinAlg ℝ]

theorem bmap_zero_none (op : RedOp) (l : List (Shape × (ℕ → ℝ))) (f : ℝ) (i : ℕ) : ∀ g, op.bmap 0 l f i = some g → g = fun _ => 0 := by
  intro g hg
  have hst : ∀ (o : StatOp) k n c (v : Args ℝ), (o.node k n).beval c v 0 = [] := by
    intro o k n c v
    cases o <;> simp [StatOp.node, normalSSS, normalVSS, normalVVS, normalVSV, normalVVV, normalMat, cauchySSS, cauchyScl, cauchyVec, uniformSSS, uniformVec, bernoulliSS, bernoulliVS, bernoulliVV,
      wishart, Fn.beq]
  have hs : ∀ (o : StatOp) k, o.bmap k 0 l i = none := by
    intro o k
    simp only [StatOp.bmap, Option.bind_eq_bind]
    cases statArgs l with
    | none => rfl
    | some p =>
      simp only [Option.bind_some]
      cases (o.node k p.1).once p.2 with
      | none => rfl
      | some r => simp only [Option.bind_some]; rw [hst]; rfl
  match l, hg, hs with
  | [], hg, hs =>
    cases op <;> simp [RedOp.bmap, hs] at hg
  | [(sh, x)], hg, _ =>
    simp only [RedOp.bmap] at hg
    split at hg
    · cases op <;> simp [RedOp.bmap1, Fn.beq] at hg <;> simp [← hg]
    · cases hg
  | a :: b :: l, hg, hs =>
    cases op <;> simp [RedOp.bmap, hs] at hg

/-- a zero seed adds nothing -/
theorem gback_null {m : ℕ → ℝ} {e : Expr ℝ} : e.WF → e.Inside realDoms m → ∀ a x, e.gback m (fun _ => 0) a x = x := by
  have list : ∀ es : Exprs ℝ, (∀ e ∈ es.toList, e.WF → e.Inside realDoms m → ∀ a x, e.gback m (fun _ => 0) a x = x) → es.WFs → es.Insides realDoms m →
      ∀ sd : ℕ → Option (ℕ → ℝ), (∀ i g, sd i = some g → g = fun _ => 0) → ∀ j a x, es.gbacks m sd j a x = x := by
    intro es
    induction es using Exprs.rec (motive_1 := fun _ => True) with
    | nil => intros; rfl
    | cons e es _ ih =>
      intro hP hwf hi sd hsd j a x
      simp only [Exprs.gbacks]
      rw [ih (fun x hx => hP x (by simp [Exprs.toList, hx])) hwf.2 hi.2 sd hsd]
      cases h : sd j with
      | none => rfl
      | some g =>
        rw [hsd j g h]
        exact hP e (by simp [Exprs.toList]) hwf.1 hi.1 a x
    | _ => trivial
  have coll : ∀ (o w : Shape) n, collapse o w n (fun _ => (0 : ℝ)) = fun _ => 0 := by
    intro o w n
    simp only [collapse]
    split
    · simp [sumN_eq]
    · rfl
  induction e using Expr.induct with
  | var v => intro _ _ a x; simp [Expr.gback]
  | const | cview => intros; rfl
  | unary op e w ih =>
    intro hwf hi a x
    simp only [Expr.gback]
    have : ∀ y z : ℝ, op.bmap 0 y z = 0 := by intro y z; cases op <;> simp [UOp.bmap]
    simp only [this]
    exact ih hwf.1 hi.1 a x
  | binary op p q w ihl ihr =>
    intro hwf hi a x
    simp only [Expr.gback]
    split
    · rfl
    · rename_i hop
      have h1 : ∀ y z u : ℝ, op.bl 0 y z u = 0 := by intro y z u; cases op <;> simp [BOp.bl, BOp.isComparison] at hop ⊢
      have h2 : ∀ y z u : ℝ, op.br 0 y z u = 0 := by intro y z u; cases op <;> simp [BOp.br, BOp.isComparison] at hop ⊢
      simp only [h1, h2, coll]
      rw [ihr hwf.2.1 hi.2.1, ihl hwf.1 hi.1]
  | pow n e w ih =>
    intro hwf hi a x
    simp only [Expr.gback]
    split
    · exact ih hwf.1 hi.1 a x
    · split
      · exact ih hwf.1 hi.1 a x
      · rename_i h0 h1
        have hp : ∀ q < e.size, powSeed n 0 ((Expr.pow n e w).exact m q) (e.exact m q) = 0 := by
          intro q hq
          have hx : e.exact m q ≠ 0 := by
            rcases hi.2 q hq with h | h | h
            · exact absurd h h0
            · exact absurd h h1
            · exact h
          simp [powSeed, Fn.beq, hx]
        rw [gback_congr m e _ (fun _ => 0) hwf.1 hp]
        exact ih hwf.1 hi.1 a x
  | prodElem e w c ih =>
    intro hwf hi a x
    simp only [Expr.gback]
    have hm : ∀ j x n, mulOthers j x (0 : ℝ) n = 0 := by
      intro j x n
      induction n with
      | zero => rfl
      | succ n ih => simp [mulOthers, ih]
    have : ∀ n x f j, prodElemSeed n x f (0 : ℝ) j = 0 := by intro n x f j; simp [prodElemSeed, hm]
    simp only [this]
    exact ih hwf.1 hi.1 a x
  | transpose e w ih =>
    intro hwf hi a x
    simp only [Expr.gback]
    exact ih hwf.1 hi a x
  | dot p q w ihl ihr =>
    intro hwf hi a x
    have h1 : ∀ m p n r, dotLSeed m p n r (fun _ => (0 : ℝ)) = fun _ => 0 := by intros; funext k; simp [dotLSeed, sumN_eq]
    have h2 : ∀ m p l, dotRSeed m p l (fun _ => (0 : ℝ)) = fun _ => 0 := by intros; funext k; simp [dotRSeed, sumN_eq]
    simp only [Expr.gback, h1, h2]
    rw [ihr hwf.2.1 hi.2, ihl hwf.1 hi.1]
  | sumIter es w ih =>
    intro hwf hi a x
    exact list es ih hwf.1 hi _ (fun i g h => (Option.some.inj h).symm) 0 a x
  | prodIter es w ih =>
    intro hwf hi a x
    refine list es ih hwf.1 hi.1 _ (fun i g h => ?_) 0 a x
    rw [← Option.some.inj h]
    funext k
    simp only [prodSeed]
    split <;> simp
  | reduce op es w ih =>
    intro hwf hi a x
    exact list es ih hwf.1 hi.1 _ (fun i g h => bmap_zero_none _ _ _ _ g h) 0 a x
  | ifElse c p q w ihc iha ihb =>
    intro hwf hi a x
    have h2 := hi.2.2
    simp only [Expr.gback]
    split
    · rename_i ht
      rw [if_pos ht] at h2
      exact iha hwf.2.1 h2 a x
    · rename_i ht
      rw [if_neg ht] at h2
      exact ihb hwf.2.2.1 h2 a x
  | eq | opEq | glue | forEach => exact fun h => h.elim

variable {ι : Type} {φ : Filter ι} {F : ι → Type} [∀ i, Zero (F i)] [∀ i, One (F i)] [∀ i, Add (F i)] [∀ i, Sub (F i)] [∀ i, Neg (F i)]
variable [∀ i, Mul (F i)] [∀ i, Div (F i)] [∀ i, NatCast (F i)] [∀ i, IntCast (F i)] [∀ i, Fn (F i)] [∀ i, HasInf (F i)] [∀ i, LinAlg (F i)]
variable {R : ℝ → (∀ i, F i) → Prop}

theorem Approx.sum (h : Approx φ F R) {n : ℕ} {x : ℕ → ℝ} {c : ∀ i, ℕ → F i} (hx : ∀ k < n, R (x k) fun i => c i k) : R (sumN n x) fun i => sumN n (c i) := by
  induction n with
  | zero => exact h.zero
  | succ n ih => exact h.add (ih fun k hk => hx k (by omega)) (hx n (by omega))

theorem Approx.sq (h : Approx φ F R) {n : ℕ} {x : ℕ → ℝ} {c : ∀ i, ℕ → F i} (hx : ∀ k < n, R (x k) fun i => c i k) : R (sqNorm n x) fun i => sqNorm n (c i) :=
  h.sum fun k hk => h.mul (hx k hk) (hx k hk)

theorem Approx.two (h : Approx φ F R) : R (1 + 1) fun _ => 1 + 1 := h.add h.one h.one

theorem Approx.half (h : Approx φ F R) : R half fun _ => half := h.div (by norm_num) h.one h.two

theorem Approx.pos (h : Approx φ F R) {x : ℝ} {a : ∀ i, F i} (hx : 0 < x) (ha : R x a) : ∀ᶠ i in φ, Fn.blt 0 (a i) = true ∧ Fn.ble (a i) 0 = false :=
  (h.cmp hx h.zero ha).mono fun _ hi => ⟨hi.1, hi.2.2.2.1⟩

theorem Approx.poss (h : Approx φ F R) {n : ℕ} {x : ℕ → ℝ} {a : ∀ i, ℕ → F i} (hx : ∀ k < n, 0 < x k) (ha : ∀ k < n, R (x k) fun i => a i k) :
    ∀ᶠ i in φ, ∀ k < n, Fn.blt 0 (a i k) = true :=
  (Filter.eventually_all_finite (Set.finite_lt_nat n)).2 fun k hk => (h.pos (hx k hk) (ha k hk)).mono fun _ hi => hi.1

theorem blt_real {x y : ℝ} (h : x < y) : Fn.blt x y = true := by simp [Fn.blt, h]
theorem ble_real {x y : ℝ} (h : x < y) : Fn.ble y x = false := by simp [Fn.ble, h]
theorem beq_real {x y : ℝ} (h : Fn.beq x y = true) : x = y := by simpa [Fn.beq] using h

/-- the elementary log-densities respect approximations -/
theorem Approx.node (h : Approx φ F R) {o : StatOp} {k : Kinds} {n : ℕ} {v : Args ℝ} {V : ∀ i, Args (F i)} (hd : realDoms.stat o n v) (hs : o.Sound k n)
    (hv : ∀ s q, R (v.get s q) fun i => (V i).get s q) :
    ∃ (y : ℝ) (Y : ∀ i, F i) (L : List Slot) (sd : ℝ → Slot → ℕ → ℝ) (sd' : ∀ i, F i → Slot → ℕ → F i), NodeOut (o.node k n) v y L sd ∧
      (∀ᶠ i in φ, NodeOut (o.node k n) (V i) (Y i) L (sd' i)) ∧ R y Y ∧
      ∀ s σ, R s σ → ∀ t, ∀ q < (o.shape n t).size, R (sd s t q) (fun i => sd' i (σ i) t q) ∧ (Fn.beq s 0 = true → sd s t q = 0) := by
  obtain ⟨he, hval⟩ := hd
  have hx := fun q => hv .x q
  have ha := fun q => hv .a q
  have hb := fun q => hv .b q
  simp only [Args.get] at hx ha hb
  cases o <;> simp only [StatOp.elementary, Bool.false_eq_true] at he
  case normalSSS =>
    have hb0 : 0 < v.b 0 := hval 0 (by simp [pdim])
    have hz := h.div hb0.ne' (h.sub (hx 0) (ha 0)) (hb 0)
    have hi := h.div hb0.ne' h.one (hb 0)
    have hz' := h.mul (h.sub (hx 0) (ha 0)) hi
    refine ⟨ySSS v, fun i => ySSS (V i), _, sdSSS v, fun i => sdSSS (V i), out_normalSSS k (ble_real hb0), (h.pos hb0 (hb 0)).mono fun i hi => out_normalSSS k hi.2,
      h.sub (h.mul (h.mul (h.neg h.half) hz) hz) (h.log hb0 (hb 0)), fun s σ hσ t q _ => ⟨?_, fun h0 => ?_⟩⟩
    · cases t
      · exact h.neg (h.mul (h.mul hσ hz') hi)
      · exact h.mul (h.mul hσ hz') hi
      · exact h.mul (h.mul hσ (h.sub (h.mul hz' hz') h.one)) hi
    · rw [beq_real h0]; cases t <;> simp [sdSSS, slotFn]
  case normalVSS =>
    have hb0 : 0 < v.b 0 := hval 0 (by simp [pdim])
    have hi := h.div hb0.ne' h.one (hb 0)
    have hii := h.mul hi hi
    have hl := h.mul (h.nat n) (h.log hb0 (hb 0))
    have hbb := h.mul (hb 0) (hb 0)
    have hne : v.b 0 * v.b 0 ≠ 0 := (mul_pos hb0 hb0).ne'
    refine ⟨yVSS k.x.isConst n v, fun i => yVSS k.x.isConst n (V i), _, sdVSS k.x.isConst n v, fun i => sdVSS k.x.isConst n (V i), out_normalVSS k n hs (ble_real hb0),
      (h.pos hb0 (hb 0)).mono fun i hi => out_normalVSS k n hs hi.2, ?_, fun s σ hσ t q _ => ⟨?_, fun h0 => ?_⟩⟩
    · cases hc : k.x.isConst
      · simp only [yVSS, Bool.false_eq_true, if_false]
        exact h.sub (h.mul (h.neg h.half) (h.div hne (h.sq fun q _ => h.sub (hx q) (ha 0)) hbb)) hl
      · have hn : (n : ℝ) ≠ 0 := Nat.cast_ne_zero.2 (hs (isConst_const hc)).ne'
        have hm := h.div hn (h.sum fun q (_ : q < n) => hx q) (h.nat n)
        have hcn := h.sub (ha 0) hm
        simp only [yVSS, if_true]
        exact h.sub (h.mul (h.mul (h.neg h.half) (h.div hne h.one hbb)) (h.add (h.sq fun q _ => h.sub (hx q) hm) (h.mul (h.mul (h.nat n) hcn) hcn))) hl
    · cases hc : k.x.isConst
      · simp only [sdVSS, Bool.false_eq_true, if_false]
        cases t
        · exact h.mul (h.mul hσ hii) (h.sub (ha 0) (hx q))
        · exact h.mul hσ (h.mul (h.sum fun q _ => h.sub (hx q) (ha 0)) hii)
        · exact h.mul (h.mul hσ (h.sub (h.div hne (h.sq fun q _ => h.sub (hx q) (ha 0)) hbb) (h.nat n))) hi
      · have hn : (n : ℝ) ≠ 0 := Nat.cast_ne_zero.2 (hs (isConst_const hc)).ne'
        have hm := h.div hn (h.sum fun q (_ : q < n) => hx q) (h.nat n)
        have hcn := h.sub (ha 0) hm
        simp only [sdVSS, if_true]
        cases t
        · exact h.zero
        · exact h.mul hσ (h.mul (h.mul (h.nat n) (h.sub hm (ha 0))) hii)
        · exact h.mul hσ (h.mul (h.sub (h.mul (h.add (h.sq fun q _ => h.sub (hx q) hm) (h.mul (h.mul (h.nat n) hcn) hcn)) hii) (h.nat n)) hi)
    · rw [beq_real h0]; cases t <;> cases k.x.isConst <;> simp [sdVSS, slotFn]
  case normalVVS =>
    have hb0 : 0 < v.b 0 := hval 0 (by simp [pdim])
    have hi := h.div hb0.ne' h.one (hb 0)
    have hii := h.mul hi hi
    have hne : v.b 0 * v.b 0 ≠ 0 := (mul_pos hb0 hb0).ne'
    have hz := h.div hne (h.sq fun q (_ : q < n) => h.sub (hx q) (ha q)) (h.mul (hb 0) (hb 0))
    refine ⟨yVVS n v, fun i => yVVS n (V i), _, sdVVS n v, fun i => sdVVS n (V i), out_normalVVS k n (ble_real hb0), (h.pos hb0 (hb 0)).mono fun i hi => out_normalVVS k n hi.2,
      h.sub (h.mul (h.neg h.half) hz) (h.mul (h.nat n) (h.log hb0 (hb 0))), fun s σ hσ t q _ => ⟨?_, fun h0 => ?_⟩⟩
    · cases t
      · exact h.mul (h.mul hσ hii) (h.sub (ha q) (hx q))
      · exact h.mul (h.mul hσ hii) (h.sub (hx q) (ha q))
      · exact h.mul (h.mul hσ (h.sub hz (h.nat n))) hi
    · rw [beq_real h0]; cases t <;> simp [sdVVS, slotFn]
  case normalVSV =>
    have hb0 : ∀ q < n, 0 < v.b q := fun q hq => hval q (by simpa [pdim] using hq)
    have hne : ∀ q < n, v.b q * v.b q ≠ 0 := fun q hq => (mul_pos (hb0 q hq) (hb0 q hq)).ne'
    have hbb := fun q => h.mul (hb q) (hb q)
    have hl := h.sum fun q (hq : q < n) => h.log (hb0 q hq) (hb q)
    have hlin := h.sum fun q (hq : q < n) => h.div (hne q hq) (hx q) (hbb q)
    have hcst := h.sq fun q (hq : q < n) => h.div (hb0 q hq).ne' h.one (hb q)
    refine ⟨yVSV (k.x.isConst && k.b.isConst) n v, fun i => yVSV (k.x.isConst && k.b.isConst) n (V i), _, sdVSV (k.x.isConst && k.b.isConst) n v,
      fun i => sdVSV (k.x.isConst && k.b.isConst) n (V i), out_normalVSV k n fun q hq => blt_real (hb0 q hq),
      (h.poss hb0 fun q _ => hb q).mono fun i hi => out_normalVSV k n hi, ?_, fun s σ hσ t q hq => ⟨?_, fun h0 => ?_⟩⟩
    · cases k.x.isConst && k.b.isConst
      · simp only [yVSV, Bool.false_eq_true, if_false]
        exact h.sub (h.mul (h.neg h.half) (h.sq fun q hq => h.div (hb0 q hq).ne' (h.sub (hx q) (ha 0)) (hb q))) hl
      · simp only [yVSV, if_true]
        exact h.sub (h.mul (h.neg h.half) (h.add (h.sub (h.sq fun q hq => h.div (hb0 q hq).ne' (hx q) (hb q)) (h.mul (h.mul h.two (ha 0)) hlin))
          (h.mul (h.mul (ha 0) (ha 0)) hcst))) hl
    · cases k.x.isConst && k.b.isConst
      · simp only [sdVSV, Bool.false_eq_true, if_false]
        cases t
        · have hq : q < n := by simpa [StatOp.shape, Shape.vec, Shape.size] using hq
          exact h.mul (h.div (hne q hq) hσ (hbb q)) (h.sub (ha 0) (hx q))
        · exact h.mul hσ (h.sum fun q hq => h.div (hne q hq) (h.sub (hx q) (ha 0)) (hbb q))
        · have hq : q < n := by simpa [StatOp.shape, parShape, Shape.vec, Shape.size] using hq
          have hz := h.div (hb0 q hq).ne' (h.sub (hx q) (ha 0)) (hb q)
          exact h.mul (h.div (hb0 q hq).ne' hσ (hb q)) (h.sub (h.mul hz hz) h.one)
      · simp only [sdVSV, if_true]
        cases t
        · exact h.zero
        · exact h.mul hσ (h.sub hlin (h.mul (ha 0) hcst))
        · exact h.zero
    · rw [beq_real h0]; cases t <;> cases (k.x.isConst && k.b.isConst) <;> simp [sdVSV, slotFn]
  case normalVVV =>
    have hb0 : ∀ q < n, 0 < v.b q := fun q hq => hval q (by simpa [pdim] using hq)
    have hne : ∀ q < n, v.b q * v.b q ≠ 0 := fun q hq => (mul_pos (hb0 q hq) (hb0 q hq)).ne'
    have hbb := fun q => h.mul (hb q) (hb q)
    have hz := fun q (hq : q < n) => h.div (hb0 q hq).ne' (h.sub (hx q) (ha q)) (hb q)
    refine ⟨yVVV n v, fun i => yVVV n (V i), _, sdVVV v, fun i => sdVVV (V i), out_normalVVV k n fun q hq => blt_real (hb0 q hq),
      (h.poss hb0 fun q _ => hb q).mono fun i hi => out_normalVVV k n hi, h.sub (h.mul (h.neg h.half) (h.sq hz)) (h.sum fun q hq => h.log (hb0 q hq) (hb q)),
      fun s σ hσ t q hq => ⟨?_, fun h0 => ?_⟩⟩
    · replace hq : q < n := by cases t <;> simpa [StatOp.shape, parShape, Shape.vec, Shape.size] using hq
      cases t
      · exact h.div (hne q hq) (h.mul hσ (h.sub (ha q) (hx q))) (hbb q)
      · exact h.div (hne q hq) (h.mul hσ (h.sub (hx q) (ha q))) (hbb q)
      · exact h.mul (h.div (hb0 q hq).ne' hσ (hb q)) (h.sub (h.mul (hz q hq) (hz q hq)) h.one)
    · rw [beq_real h0]; cases t <;> simp [sdVVV, slotFn]
  case cauchySSS =>
    have hb0 : 0 < v.b 0 := hval 0 (by simp [pdim])
    have hd := h.sub (hx 0) (ha 0)
    have hc := h.add (hb 0) (h.div hb0.ne' (h.mul hd hd) (hb 0))
    have hc0 : 0 < v.b 0 + (v.x 0 - v.a 0) * (v.x 0 - v.a 0) / v.b 0 := add_pos_of_pos_of_nonneg hb0 (div_nonneg (mul_self_nonneg _) hb0.le)
    have h0 := h.div (mul_pos hb0 hc0).ne' (h.mul h.two hd) (h.mul (hb 0) hc)
    refine ⟨yCauchy v, fun i => yCauchy (V i), _, sdCauchy v, fun i => sdCauchy (V i), out_cauchySSS (blt_real hb0), (h.pos hb0 (hb 0)).mono fun i hi => out_cauchySSS hi.1,
      h.neg (h.log hc0 hc), fun s σ hσ t q _ => ⟨?_, fun hz => ?_⟩⟩
    · cases t
      · exact h.mul hσ (h.neg h0)
      · exact h.mul hσ h0
      · exact h.mul hσ (h.mul (h.div hb0.ne' h.one (hb 0)) (h.sub (h.mul h0 hd) h.one))
    · rw [beq_real hz]; cases t <;> simp [sdCauchy, slotFn]
  case uniformSSS =>
    obtain ⟨h1, h2⟩ := hval 0 Nat.one_pos
    simp only [pidx, if_true] at h1 h2
    have hd := h.sub (hb 0) (ha 0)
    have hp : 0 < v.b 0 - v.a 0 := by linarith
    refine ⟨yUnif v, fun i => yUnif (V i), _, sdUnif v, fun i => sdUnif (V i), out_uniformSSS k (blt_real h1) (blt_real h2), ?_,
      h.neg (h.log hp hd), fun s σ hσ t q _ => ⟨?_, fun hz => ?_⟩⟩
    · filter_upwards [h.cmp h1 (ha 0) (hx 0), h.cmp h2 (hx 0) (hb 0)] with i h1 h2
      exact out_uniformSSS k h1.1 h2.1
    · cases t
      · exact h.zero
      · exact h.div hp.ne' hσ hd
      · exact h.neg (h.div hp.ne' hσ hd)
    · rw [beq_real hz]; cases t <;> simp [sdUnif, slotFn]
  case uniformVec sa sb =>
    have hval : InRange sa sb n v := hval
    have hev : ∀ᶠ i in φ, ∀ q < n, Fn.blt ((V i).a (pidx sa q)) ((V i).x q) = true ∧ Fn.blt ((V i).x q) ((V i).b (pidx sb q)) = true := by
      refine (Filter.eventually_all_finite (Set.finite_lt_nat n)).2 fun q hq => ?_
      filter_upwards [h.cmp (hval q hq).1 (ha _) (hx q), h.cmp (hval q hq).2 (hx q) (hb _)] with i h1 h2
      exact ⟨h1.1, h2.1⟩
    have hd := fun q => h.sub (hb (if sb then 0 else q)) (ha (if sa then 0 else q))
    have hp : ∀ q < n, 0 < v.b (if sb then 0 else q) - v.a (if sa then 0 else q) := by
      intro q hq
      have := hval q hq
      simp only [pidx] at this
      linarith
    have h00 : (sa && sb) = true → 0 < v.b 0 - v.a 0 := by
      intro hab
      have hab' : sa = true ∧ sb = true := by simpa using hab
      have := hp 0 (hs.1 (by simp [hab'.1]))
      simpa [hab'.1, hab'.2] using this
    have hld : R (uniformLogDiff sa sb n v) fun i => uniformLogDiff sa sb n (V i) := by
      simp only [uniformLogDiff]
      by_cases hab : (sa && sb) = true
      · simp only [hab, if_true]
        exact h.log (h00 hab) (h.sub (hb 0) (ha 0))
      · simp only [hab]
        exact h.sum fun q hq => h.log (hp q hq) (hd q)
    refine ⟨yUnifV sa sb n v, fun i => yUnifV sa sb n (V i), _, sdUnifV sa sb n v, fun i => sdUnifV sa sb n (V i),
      out_uniformVec sa sb k n hs (fun q hq => blt_real (hval q hq).1) (fun q hq => blt_real (hval q hq).2),
      hev.mono fun i hi => out_uniformVec sa sb k n hs (fun q hq => (hi q hq).1) (fun q hq => (hi q hq).2), ?_, fun s σ hσ t q hq => ⟨?_, fun hz => ?_⟩⟩
    · simp only [yUnifV]
      by_cases hab : (sa && sb) = true
      · simp only [hab, if_true]; exact h.mul (h.neg (h.nat n)) hld
      · simp only [hab]; exact h.neg hld
    · by_cases hab : (sa && sb) = true
      · have h0 := h.div (h00 hab).ne' (h.mul hσ (h.nat n)) (h.sub (hb 0) (ha 0))
        simp only [sdUnifV, hab, if_true]
        cases t
        · exact h.zero
        · exact h0
        · exact h.neg h0
      · simp only [sdUnifV, hab]
        have hsum := h.sum fun q (hq : q < n) => h.div (hp q hq).ne' h.one (hd q)
        cases t
        · exact h.zero
        · cases sa
          · have hq : q < n := by simpa [StatOp.shape, parShape, Shape.vec, Shape.size] using hq
            exact h.div (hp q hq).ne' hσ (hd q)
          · exact h.mul hσ hsum
        · cases sb
          · have hq : q < n := by simpa [StatOp.shape, parShape, Shape.vec, Shape.size] using hq
            exact h.div (hp q hq).ne' (h.neg hσ) (hd q)
          · exact h.mul (h.neg hσ) hsum
    · rw [beq_real hz]; cases t <;> cases sa <;> cases sb <;> simp [sdUnifV, slotFn]

end FastAD
