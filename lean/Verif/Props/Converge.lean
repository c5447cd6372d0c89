import Verif.Proof.Rounded
import Verif.Props.Samples

/-!
# Convergence with growing precision

Property C54: from exact real arithmetic to machine arithmetic.
-/

open Filter Topology

namespace FastAD

section
variable [HasInf ℝ] [LinAlg ℝ]
variable {F : ℕ → Type} [∀ p, Zero (F p)] [∀ p, One (F p)] [∀ p, Add (F p)] [∀ p, Sub (F p)] [∀ p, Neg (F p)]
variable [∀ p, Mul (F p)] [∀ p, Div (F p)] [∀ p, NatCast (F p)] [∀ p, IntCast (F p)] [∀ p, Fn (F p)] [∀ p, HasInf (F p)] [∀ p, LinAlg (F p)]
variable {val : ∀ p, F p → ℝ}

/-- **C54.** Let the same side-effect-free expression be compiled for a sequence of arithmetics which become exact (`Faithful`; `val` is the real number that a machine number stands for, `rd p` converts the
literal constants), bound in each of them, and differentiated after an arbitrary history.  If variables, constants, initial adjoints and seeds tend to real numbers, and evaluation at the limit stays inside the domains of all operations
(`Inside`), then every run is defined, the returned values tend to the mathematical value of the expression, and every adjoint tends to its initial value plus the exact partial derivative. -/
theorem C54_converges [LawfulLinAlg] (hF : Faithful atTop F val) {rd : ∀ p, ℝ → F p} (hrd : ∀ c, Lim atTop val c fun p => rd p c)
    {e : Expr ℝ} {m d : ℕ → ℝ} (hwf : e.WF) (hin : e.Inside realDoms m) {s S : ∀ p, St (F p)} {qv qa : ℕ → ℕ} {jv ja : ∀ p, ℕ → F p}
    (hal : ∀ p, e.Alive (s p).vok (s p).aok) (hf : ∀ p, Fresh (s p) e.bindSize (qv p) (qa p))
    (hSv : ∀ p a, (bindExpr (e.map (rd p)) (qv p) (qa p) (jv p) (ja p) (s p)).2.vok a = true → (S p).vok a = true)
    (hSa : ∀ p a, (bindExpr (e.map (rd p)) (qv p) (qa p) (jv p) (ja p) (s p)).2.aok a = true → (S p).aok a = true)
    (hval : ∀ c ∈ e.valCells ∪ e.constCells, Lim atTop val (m c) fun p => (S p).val c)
    (hadj : ∀ a ∈ e.adjCells, Lim atTop val (d a) fun p => (S p).adj a)
    {σ : ℕ → ℝ} {seed : ∀ p, ℕ → F p} (hseed : ∀ k < e.size, Lim atTop val (σ k) fun p => seed p k) :
    ∃ (S' : ∀ p, St (F p)) (r : ∀ p, Ref (F p)) (y : ∀ p, ℕ → F p),
      (∀ p, autodiff (bindExpr (e.map (rd p)) (qv p) (qa p) (jv p) (ja p) (s p)).1 (seed p) (S p) = some (S' p, r p) ∧
        (r p).read (S' p) e.size = some (y p)) ∧
      (∀ k < e.size, Lim atTop val (e.denote m k) fun p => y p k) ∧
      ∀ π, e.Paired π → Set.InjOn π e.adjCells → (∀ a ∈ e.adjCells, π a ∉ e.constCells) → ∀ a ∈ e.adjCells,
        ∃ D, HasDerivAt (fun t => ∑ k ∈ Finset.range e.size, σ k * e.denote (Function.update m (π a) t) k) D (m (π a)) ∧
          Lim atTop val (d a + D) fun p => (S' p).adj a := by
  have hrun := fun p => ((bindExpr_bnd (s := s p) (jv := jv p) (ja := ja p) (map_wf (rd p) hwf) ((map_alive _).2 (hal p))
    (by rw [map_bindSize]; exact hf p)).mono (hSv p) (hSa p)).gautodiff (m := (S p).val) (fun _ _ => rfl) (seed p)
  choose S' r h using hrun
  have hm : ∀ a ∈ e.reads, Lim atTop val (m a) fun p => (S p).val a := fun a ha => hval a (Finset.mem_union.2 (reads_cells e a ha))
  have hin' : (e.map fun x => x).Inside realDoms m := by rwa [map_id]
  have hex := fun k hk => (related_exact (fun x => x) rd hF.related hrd e hwf hin' hm k hk).1
  have hpo := fun k hk => related_post (fun x => x) rd hF.related hrd e hwf hin' hm k hk
  have hden := exact_eq_denote hwf hin
  simp only [map_id] at hex hpo
  have hpost := fun hs k hk => post_real hwf (hal 0) (hf 0) m hs (k := k) hk
  refine ⟨S', r, fun p => _, fun p => ⟨(h p).run, by rw [← map_size (rd p) e]; exact (h p).value⟩, fun k hk => ?_, fun π hπ hinj hc a ha => ?_⟩
  · simp only [map_size, map_shape]
    by_cases hs : e.shape.isScl = true
    · simp only [hs, if_true, trunc_of_lt hk, ← hden]
      exact hex k hk
    · simp only [hs, trunc_of_lt hk, ← hpost hs k hk]
      exact hpo k hk
  · refine ⟨e.grad m σ a, grad_partial hwf hπ hinj hc ha (inside_reg (fun c => ?_) hwf (by rwa [Function.update_eq_self])) σ, ?_⟩
    · by_cases hca : c = π a
      · subst hca; simp only [Function.update_self]; exact tendsto_id
      · simp only [Function.update_of_ne hca]; exact tendsto_const_nhds
    · have h1 := related_gback (fun x => x) rd hF.related hrd e hwf hin' hm σ seed hseed a (d a) (fun p => (S p).adj a) (hadj a ha)
      rw [map_id, gback_real hwf (hal 0) (hf 0) m σ ha (d a)] at h1
      refine h1.congr' (Eventually.of_forall fun p => congrArg (val p) ?_)
      refine ((h p).adj a fun hb => ?_).symm
      obtain ⟨k, hk, rfl⟩ := mem_rng_iff.1 hb
      have := (hf p).2 k (by rwa [map_bindSize] at hk)
      rw [show (s p).aok (qa p + k) = true from adjCells_alive (hal p) _ ha] at this
      cases this

end

/-! ### Rounded arithmetic -/

/-- **C54, rounding errors.** Arithmetics in which the result of every operation is rounded with an error of at most `ε p * (1 + |x|)`, for results `x` in a range `[-K, K]` that grows beyond all bounds, become exact if `ε p` tends to 0.
(This covers relative errors `ε |x|` as of floating-point numbers, absolute errors as of fixed-point numbers and of underflow, and overflow.) -/
theorem C54_rounding {r : ℕ → ℝ → ℝ} {ε : ℕ → ℝ} (hr : ∀ K, ∀ᶠ p in atTop, ∀ x, |x| ≤ K → |r p x - x| ≤ ε p * (1 + |x|)) (hε : Tendsto ε atTop (𝓝 0)) :
    Faithful atTop (fun p => Rounded (r p)) (fun _ a => a.v) := rounded_faithful hr hε

/-- rounding down to multiples of `2^-p` -/
example : Faithful atTop (fun p => Rounded (grid p)) (fun _ a => a.v) := C54_rounding grid_errs half_pow_tendsto

/-- **C54, floating-point numbers.** Floating-point formats with more and more digits and larger and larger exponents become exact. -/
theorem C54_floating_point {lo hi : ℕ → ℤ} (hlo : ∀ p, lo p ≤ 0) (hhi : Tendsto hi atTop atTop) : Faithful atTop (fun p => Rounded (Rounded.float p (lo p) (hi p))) (fun _ a => a.v) := by
  refine C54_rounding (ε := fun p => (1 / 2) ^ (p + 1)) (fun K => ?_) ((tendsto_add_atTop_iff_nat 1).2 half_pow_tendsto)
  obtain ⟨n, hn⟩ := exists_nat_gt K
  filter_upwards [hhi.eventually_ge_atTop (n : ℤ)] with p hp x hx
  refine float_err p (hlo p) (hx.trans_lt (hn.trans_le ?_))
  have h1 : (n : ℝ) ≤ 2 ^ n := by exact_mod_cast Nat.lt_two_pow_self.le
  have h2 : (2 : ℝ) ^ (n : ℤ) ≤ 2 ^ (hi p + 1) := zpow_le_zpow_right₀ (by norm_num) (by omega)
  rw [zpow_natCast] at h2
  exact h1.trans h2

/-- the formats with `p` digits and exponents between `-2^p` and `2^p` -/
example : Faithful atTop (fun p => Rounded (Rounded.float p (-2 ^ p) (2 ^ p))) (fun _ a => a.v) :=
  C54_floating_point (fun p => by simp) (tendsto_atTop_mono (fun p => by exact_mod_cast Nat.lt_two_pow_self.le) tendsto_natCast_atTop_atTop)

/-- IEEE double precision: the unit of rounding is `2^-53` up to the largest numbers -/
example {x : ℝ} (hx : |x| < 2 ^ 1024) : |Rounded.float 52 (-1022) 1023 x - x| ≤ (1 / 2 : ℝ) ^ 53 * (1 + |x|) := float_err 52 (by norm_num) (by exact_mod_cast hx)

namespace ConvergeSample

variable [HasInf ℝ] [LinAlg ℝ] [∀ r, HasInf (Rounded r)] [∀ r, LinAlg (Rounded r)]

omit [∀ r, HasInf (Rounded r)] [∀ r, LinAlg (Rounded r)] in
theorem e_inside {m : ℕ → ℝ} (h : 0 < m 0) : Sample.e.Inside realDoms m := by
  simp [Sample.e, Expr.mkBinary, Expr.mkReduce, Expr.mkUnary, Expr.Inside, Exprs.Insides, realDoms, plainDoms, UOp.DomAt, Expr.exact, Sample.x, addr, Expr.size, Expr.shape, Expr.view, Shape.size, Shape.scl, h]

/-- the memory of the sample in rounded arithmetic -/
noncomputable def s (p : ℕ) : St (Rounded (grid p)) := ⟨fun a => ⟨grid p (Sample.s.val a)⟩, fun _ => 0, Sample.s.vok, Sample.s.aok⟩

omit [HasInf ℝ] [LinAlg ℝ] [∀ r, HasInf (Rounded r)] [∀ r, LinAlg (Rounded r)] in
theorem grid_lim (x : ℝ) : Tendsto (fun p => grid p x) atTop (𝓝 x) := rnd_tendsto grid_errs half_pow_tendsto tendsto_const_nhds

/-- `sum(x * sin(v)) + log(x)` at `x = 1`, `v = (2, 3)`, computed with binary fractions of more and more digits, every result rounded down: the returned value tends to `sin 2 + sin 3`, the adjoint of `x` tends to
the partial derivative. -/
example [LawfulLinAlg] :
    ∃ (S' : ∀ p, St (Rounded (grid p))) (r : ∀ p, Ref (Rounded (grid p))) (y : ∀ p, ℕ → Rounded (grid p)),
      (∀ p, autodiff (bindExpr (Sample.e.map Rounded.lit) 10 10 0 0 (s p)).1 (fun _ => 1) (bindExpr (Sample.e.map Rounded.lit) 10 10 0 0 (s p)).2 = some (S' p, r p) ∧
        (r p).read (S' p) 1 = some (y p)) ∧
      Tendsto (fun p => (y p 0).v) atTop (𝓝 (Sample.e.denote Sample.s.val 0)) ∧
      ∃ D, HasDerivAt (fun t => Sample.e.denote (Function.update Sample.s.val 0 t) 0) D (Sample.s.val 0) ∧
        Tendsto (fun p => ((S' p).adj 0).v) atTop (𝓝 D) := by
  have hcell : ∀ c ∈ Sample.e.valCells ∪ Sample.e.constCells, c < 3 := by decide
  obtain ⟨S', r, y, h1, h2, h3⟩ := C54_converges (C54_rounding grid_errs half_pow_tendsto) (rd := fun p => Rounded.lit) (fun c => grid_lim c) (e := Sample.e) (m := Sample.s.val) (d := fun _ => 0)
    Sample.e_wf (e_inside (by simp [Sample.s])) (s := s) (S := fun p => (bindExpr (Sample.e.map Rounded.lit) 10 10 0 0 (s p)).2) (qv := fun _ => 10) (qa := fun _ => 10) (jv := fun _ => 0) (ja := fun _ => 0)
    (fun p => Sample.e_alive) (fun p => ⟨Sample.e_fresh.1, Sample.e_fresh.2⟩) (fun p a h => h) (fun p a h => h)
    (fun c hc => by
      refine (grid_lim (Sample.s.val c)).congr fun p => ?_
      exact congrArg Rounded.v (if_neg (by have := hcell c hc; omega)).symm)
    (fun a ha => by
      refine (tendsto_const_nhds (x := (0 : ℝ))).congr fun p => ?_
      rw [Sample.e_adjCells] at ha
      exact congrArg Rounded.v (if_neg (by fin_cases ha <;> simp)).symm)
    (σ := fun _ => 1) (seed := fun _ _ => 1) (fun k _ => tendsto_const_nhds)
  refine ⟨S', r, y, h1, h2 0 (by decide), ?_⟩
  obtain ⟨D, hD, hl⟩ := h3 id Sample.e_paired (Set.injOn_id _) (fun a _ => by simp [Sample.e_constCells]) 0 (by decide)
  refine ⟨D, ?_, by simpa [Lim] using hl⟩
  have : Sample.e.size = 1 := by decide
  simpa [this] using hD

/-- `prod(v)` for a vector `v` of two elements -/
def pr {α : Type} : Expr α := .mkProdElem (.var Sample.v)

/-- memory with `v = (2^-p, 1/2)` -/
noncomputable def t (p : ℕ) : St (Rounded (grid p)) := ⟨fun a => ⟨if a = 1 then (1 / 2) ^ p else 1 / 2⟩, fun _ => 0, Sample.s.vok, Sample.s.aok⟩

/-- **C54, a vanishing factor.** `Inside` is needed: the variables `(2^-p, 1/2)` tend to `(0, 1/2)`, where the partial derivative of `prod` by the first variable is `1/2`, but in the fixed-point arithmetic with `p` binary digits
the product is rounded to 0, so that the code, which divides the product by the factor (prod.hpp:195-207), always leaves the adjoint 0. -/
theorem C54_fails_at_zero_factor :
    ∃ (S' : ∀ p, St (Rounded (grid p))) (r : ∀ p, Ref (Rounded (grid p))),
      (∀ p, autodiff (bindExpr pr 10 10 0 0 (t p)).1 (fun _ => 1) (bindExpr pr 10 10 0 0 (t p)).2 = some (S' p, r p)) ∧
      Tendsto (fun p => ((t p).val 1).v) atTop (𝓝 0) ∧ (∀ p, ((t p).val 2).v = 1 / 2) ∧ (∀ p, ((S' p).adj 1).v = 0) ∧
      HasDerivAt (fun x => (pr (α := ℝ)).denote (Function.update (fun _ => 1 / 2) 1 x) 0) (1 / 2) 0 := by
  have hwf : ∀ {α : Type}, (pr (α := α)).WF := by
    intro α
    simp [pr, Expr.mkProdElem, Expr.WF, View.null, Sample.v, Shape.scl, Shape.vec, Shape.Ok, Expr.isIf]
  have hal : ∀ p, (pr (α := Rounded (grid p))).Alive (t p).vok (t p).aok := by
    intro p
    constructor
    · intro w hw
      simp only [pr, Expr.mkProdElem, Expr.vars, List.mem_singleton] at hw
      subst hw
      constructor <;> intro k hk <;> simp [Sample.v, View.size, Shape.size, Shape.vec, Sample.s, t] at hk ⊢ <;> omega
    · intro c hc
      simp [pr, Expr.mkProdElem, Expr.cviews] at hc
  have hf : ∀ p, Fresh (t p) (pr (α := Rounded (grid p))).bindSize 10 10 := by
    intro p
    constructor <;> intro k _ <;> simp [t, Sample.s] <;> omega
  have hrun := fun p => (bindExpr_bnd (s := t p) (jv := 0) (ja := 0) hwf (hal p) (hf p)).gautodiff (m := (bindExpr pr 10 10 0 0 (t p)).2.val) (fun _ _ => rfl) (fun _ => 1)
  choose S' r h using hrun
  refine ⟨S', r, fun p => (h p).run, half_pow_tendsto, fun p => by simp [t], fun p => ?_, ?_⟩
  · have h2 : (2 : ℝ) ^ p ≠ 0 := by positivity
    have hg : grid p 0 = 0 := by simp [grid]
    have hg1 : grid p ((1 / 2) ^ p) = (1 / 2) ^ p := by
      rw [grid, ← mul_pow]; simp
    have hg2 : grid p ((1 / 2) ^ p * (1 / 2)) = 0 := by
      rw [grid, mul_right_comm, ← mul_pow]; norm_num
    have hb : ∀ k, (bindExpr pr 10 10 0 0 (t p)).2.val k = if k < 10 then (t p).val k else (bindExpr pr 10 10 0 0 (t p)).2.val k := by
      intro k
      split
      · exact if_neg (by omega)
      · rfl
    have hx : (pr (α := Rounded (grid p))).gback (bindExpr pr 10 10 0 0 (t p)).2.val (fun _ => 1) 1 0 = ⟨0⟩ := by
      have e1 : (bindExpr pr 10 10 0 0 (t p)).2.val 1 = ⟨(1 / 2) ^ p⟩ := by rw [hb]; simp [t]
      have e2 : (bindExpr pr 10 10 0 0 (t p)).2.val 2 = ⟨1 / 2⟩ := by rw [hb]; simp [t]
      generalize (bindExpr pr 10 10 0 0 (t p)).2.val = m at e1 e2
      have e3 : ∀ a b : Rounded (grid p), a * b = ⟨grid p (a.v * b.v)⟩ := fun _ _ => rfl
      have e4 : ∀ a b : Rounded (grid p), a / b = ⟨grid p (a.v / b.v)⟩ := fun _ _ => rfl
      have e5 : ∀ a b : Rounded (grid p), a + b = ⟨grid p (a.v + b.v)⟩ := fun _ _ => rfl
      have e6 : (1 : Rounded (grid p)) = ⟨1⟩ := rfl
      have e7 : (0 : Rounded (grid p)) = ⟨0⟩ := rfl
      have e8 : ∀ a b : Rounded (grid p), Fn.beq a b = true ↔ a.v = b.v := fun _ _ => by simp [Fn.beq]
      have e9 : ¬((1 / 2 : ℝ) ^ p = 0) := by positivity
      simp only [pr, Expr.mkProdElem, Expr.gback, Sample.v, addr, View.size, Shape.size, Shape.vec, prodElemSeed, Expr.exact, Expr.size, Expr.shape, Expr.view, prodN]
      simp only [Option.getD_some, le_refl, true_and, Nat.sub_self, add_zero, Nat.mul_one, e1, e2, e3, e4, e5, e6, e7, e8, one_mul, hg1, hg2, zero_div, hg, e9, if_false, mul_zero, Nat.reduceAdd]
      simp
    rw [(h p).adj 1 (fun hb => by obtain ⟨k, _, hk⟩ := mem_rng_iff.1 hb; simp only [addr, Option.getD_some] at hk; omega), show (bindExpr pr 10 10 0 0 (t p)).2.adj 1 = 0 by simp [bindExpr, St.allocate, t, fillRange], hx]
  · have e1 : (fun x : ℝ => (pr (α := ℝ)).denote (Function.update (fun _ => 1 / 2) 1 x) 0) = fun x => x * (1 / 2) := by
      funext x
      simp [pr, Expr.mkProdElem, Expr.denote, Expr.size, Expr.shape, Expr.view, Sample.v, Shape.size, Shape.vec, addr, Finset.prod_range_succ]
    rw [e1]
    simpa using (hasDerivAt_id (0 : ℝ)).mul_const (1 / 2)

end ConvergeSample

end FastAD
