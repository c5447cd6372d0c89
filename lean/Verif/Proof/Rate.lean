import Verif.Spec.Rate
import Verif.Proof.Rounded
import Verif.Proof.ConvergeProg

/-!
# Rounding errors are of the order of the unit of rounding
-/

open Filter Topology Asymptotics

namespace FastAD

set_option linter.unusedSectionVars false

/-! ### Single operations -/

section
variable {ι : Type} {φ : Filter ι}

theorem Near.lim {F : ι → Type} {val : ∀ i, F i → ℝ} {ε : ι → ℝ} (hε : Tendsto ε φ (𝓝 0)) {x : ℝ} {a : ∀ i, F i} (ha : Near φ val ε x a) : Lim φ val x a := by
  have := (IsBigO.trans_tendsto ha hε).add_const x
  simpa [Lim] using this

theorem near_congr {F : ι → Type} {val : ∀ i, F i → ℝ} {ε : ι → ℝ} {x : ℝ} {a b : ∀ i, F i} (ha : Near φ val ε x a) (h : ∀ᶠ i in φ, a i = b i) : Near φ val ε x b :=
  IsBigO.congr' ha (h.mono fun i hi => by simp only [hi]) EventuallyEq.rfl

theorem near_mix {F : ι → Type} {val : ∀ i, F i → ℝ} {ε : ι → ℝ} {x : ℝ} {a b : ∀ i, F i} (p : ι → Bool) (ha : Near φ val ε x a) (hb : Near φ val ε x b) :
    Near φ val ε x fun i => if p i = true then a i else b i := by
  obtain ⟨c, hc⟩ := IsBigO.bound ha
  obtain ⟨d, hd⟩ := IsBigO.bound hb
  refine IsBigO.of_bound (max c d) ?_
  filter_upwards [hc, hd] with i hc hd
  split
  · exact hc.trans (mul_le_mul_of_nonneg_right (le_max_left _ _) (norm_nonneg _))
  · exact hd.trans (mul_le_mul_of_nonneg_right (le_max_right _ _) (norm_nonneg _))

/-- an operation that is differentiable and then rounded -/
theorem near_op {r : ι → ℝ → ℝ} {ε : ι → ℝ} (hr : ∀ K, ∀ᶠ i in φ, ∀ x, |x| ≤ K → |r i x - x| ≤ ε i * (1 + |x|)) (hε : Tendsto ε φ (𝓝 0)) {E : Type} [NormedAddCommGroup E] [NormedSpace ℝ E] {f : E → ℝ} {x : E}
    (hf : DifferentiableAt ℝ f x) {a : ι → E} (ha : (fun i => a i - x) =O[φ] ε) : (fun i => r i (f (a i)) - f x) =O[φ] ε := by
  have ht : Tendsto a φ (𝓝 x) := by
    have := (ha.trans_tendsto hε).add_const x
    simpa using this
  have h1 : (fun i => f (a i) - f x) =O[φ] ε := (hf.isBigO_sub.comp_tendsto ht).trans ha
  have hb : (fun i => 1 + |f (a i)|) =O[φ] fun _ => (1 : ℝ) := ((hf.continuousAt.tendsto.comp ht).abs.const_add 1).isBigO_one ℝ
  have h2 : (fun i => r i (f (a i)) - f (a i)) =O[φ] ε := by
    have h3 : (fun i => r i (f (a i)) - f (a i)) =O[φ] fun i => ε i * (1 + |f (a i)|) := IsBigO.of_bound 1 (by
      filter_upwards [hr (|f x| + 1), (hf.continuousAt.tendsto.comp ht).abs.eventually_lt_const (lt_add_one |f x|)] with i h3 h4
      rw [one_mul, Real.norm_eq_abs, Real.norm_eq_abs]
      exact (h3 _ h4.le).trans (le_abs_self _))
    have h4 : (fun i => ε i * (1 + |f (a i)|)) =O[φ] ε := by simpa using (isBigO_refl ε φ).mul hb
    exact h3.trans h4
  simpa using h2.add h1

theorem near_op2 {r : ι → ℝ → ℝ} {ε : ι → ℝ} (hr : ∀ K, ∀ᶠ i in φ, ∀ x, |x| ≤ K → |r i x - x| ≤ ε i * (1 + |x|)) (hε : Tendsto ε φ (𝓝 0)) {f : ℝ × ℝ → ℝ} {x y : ℝ}
    (hf : DifferentiableAt ℝ f (x, y)) {a b : ι → ℝ} (ha : (fun i => a i - x) =O[φ] ε) (hb : (fun i => b i - y) =O[φ] ε) : (fun i => r i (f (a i, b i)) - f (x, y)) =O[φ] ε :=
  near_op hr hε hf (a := fun i => (a i, b i)) (ha.prod_left hb)

theorem near_exact {ε : ι → ℝ} (x : ℝ) : (fun _ : ι => x - x) =O[φ] ε := by simpa using isBigO_zero ε φ

theorem rounded_accurate {r : ι → ℝ → ℝ} {ε : ι → ℝ} (hr : ∀ K, ∀ᶠ i in φ, ∀ x, |x| ≤ K → |r i x - x| ≤ ε i * (1 + |x|)) (hε : Tendsto ε φ (𝓝 0)) :
    Approx φ (fun i => Rounded (r i)) (Near φ (fun _ a => a.v) ε) := by
  have h := fun {f : ℝ → ℝ} {x : ℝ} (hf : DifferentiableAt ℝ f x) {a : ι → ℝ} (ha : (fun i => a i - x) =O[φ] ε) => near_op hr hε hf ha
  have h2 := fun {f : ℝ × ℝ → ℝ} {x y : ℝ} (hf : DifferentiableAt ℝ f (x, y)) {a b : ι → ℝ} (ha : (fun i => a i - x) =O[φ] ε) (hb : (fun i => b i - y) =O[φ] ε) => near_op2 hr hε hf ha hb
  have hc := fun x : ℝ => h (f := fun x => x) differentiableAt_id (x := x) (near_exact x)
  exact
  { zero := near_exact _
    one := near_exact _
    nat := fun n => hc n
    int := fun n => hc n
    add := fun ha hb => h2 (f := fun p => p.1 + p.2) (by fun_prop) ha hb
    sub := fun ha hb => h2 (f := fun p => p.1 - p.2) (by fun_prop) ha hb
    mul := fun ha hb => h2 (f := fun p => p.1 * p.2) (by fun_prop) ha hb
    neg := fun {x a} ha => by
      refine (IsBigO.neg_left ha).congr_left fun i => ?_
      show -((a i).v - x) = -(a i).v - -x
      ring
    div := fun {x y a b} hy ha hb => h2 (f := fun p => p.1 / p.2) (by fun_prop (disch := exact hy)) ha hb
    sin := fun ha => h (Real.hasDerivAt_sin _).differentiableAt ha
    cos := fun ha => h (Real.hasDerivAt_cos _).differentiableAt ha
    tan := fun h0 ha => h (Real.hasDerivAt_tan h0).differentiableAt ha
    asin := fun h0 h1 ha => h (Real.differentiableAt_arcsin.2 ⟨h0.ne', h1.ne⟩) ha
    acos := fun h0 h1 ha => h (Real.differentiableAt_arccos.2 ⟨h0.ne', h1.ne⟩) ha
    atan := fun ha => h (Real.hasDerivAt_arctan _).differentiableAt ha
    exp := fun ha => h (Real.hasDerivAt_exp _).differentiableAt ha
    log := fun h0 ha => h (Real.hasDerivAt_log h0.ne').differentiableAt ha
    sqrt := fun h0 ha => h (Real.hasDerivAt_sqrt h0.ne').differentiableAt ha
    erf := fun ha => h (hasDerivAt_realErf _).differentiableAt ha
    sinh := fun ha => h (Real.hasDerivAt_sinh _).differentiableAt ha
    cosh := fun ha => h (Real.hasDerivAt_cosh _).differentiableAt ha
    tanh := fun {x a} ha => by
      have hd : DifferentiableAt ℝ Real.tanh x := by
        rw [show Real.tanh = fun x => Real.sinh x / Real.cosh x from funext Real.tanh_eq_sinh_div_cosh]
        exact (Real.hasDerivAt_sinh _).differentiableAt.div (Real.hasDerivAt_cosh _).differentiableAt (Real.cosh_pos x).ne'
      exact h hd ha
    ipow := fun {n x a} h0 ha => by
      refine h (f := fun x => x ^ n) (differentiableAt_zpow.2 ?_) ha
      rcases h0 with rfl | rfl | h0
      · exact .inr (by omega)
      · exact .inr (by omega)
      · exact .inl h0
    twoOverSqrtPi := hc _
    cmp := fun {x y a b} hxy ha hb => (rounded_faithful hr hε).cmp hxy (Near.lim hε ha) (Near.lim hε hb)
    bools := (rounded_faithful hr hε).bools }

end

/-! ### Expressions and programs -/

variable [HasInf ℝ] [LinAlg ℝ]
variable {ι : Type} {φ : Filter ι} {F : ι → Type} [∀ i, Zero (F i)] [∀ i, One (F i)] [∀ i, Add (F i)] [∀ i, Sub (F i)] [∀ i, Neg (F i)]
variable [∀ i, Mul (F i)] [∀ i, Div (F i)] [∀ i, NatCast (F i)] [∀ i, IntCast (F i)] [∀ i, Fn (F i)] [∀ i, HasInf (F i)] [∀ i, LinAlg (F i)]
variable {R : ℝ → (∀ i, F i) → Prop}

/-- a family of runs of the same expression in arithmetics that approximate the real numbers -/
theorem approx_autodiff [LawfulLinAlg] [Nonempty ι] (hF : Approx φ F R) (hcongr : ∀ {x : ℝ} {c d : ∀ i, F i}, R x c → (∀ᶠ i in φ, c i = d i) → R x d)
    (hmix : ∀ {x : ℝ} {c d : ∀ i, F i} (p : ι → Bool), R x c → R x d → R x fun i => if p i = true then c i else d i) {rd : ∀ i, ℝ → F i}
    (hrd : ∀ c, R c fun i => rd i c) {e : Expr ℝ} {m d : ℕ → ℝ} (hwf : e.WF) (hin : e.Inside realDoms m) {s S : ∀ i, St (F i)} {qv qa : ι → ℕ} {jv ja : ∀ i, ℕ → F i}
    (hal : ∀ i, e.Alive (s i).vok (s i).aok) (hf : ∀ i, Fresh (s i) e.bindSize (qv i) (qa i))
    (hS : ∀ i, Later (bindExpr (e.map (rd i)) (qv i) (qa i) (jv i) (ja i) (s i)).2 (S i))
    (hval : ∀ c ∈ e.valCells ∪ e.constCells, R (m c) fun i => (S i).val c) (hadj : ∀ a ∈ e.adjCells, R (d a) fun i => (S i).adj a)
    {σ : ℕ → ℝ} {seed : ∀ i, ℕ → F i} (hseed : ∀ k < e.size, R (σ k) fun i => seed i k) :
    ∃ (S' : ∀ i, St (F i)) (r : ∀ i, Ref (F i)) (y : ∀ i, ℕ → F i),
      (∀ i, autodiff (bindExpr (e.map (rd i)) (qv i) (qa i) (jv i) (ja i) (s i)).1 (seed i) (S i) = some (S' i, r i) ∧ (r i).read (S' i) e.size = some (y i)) ∧
      (∀ k < e.size, R (e.denote m k) fun i => y i k) ∧ ∀ a ∈ e.adjCells, R (d a + e.grad m σ a) fun i => (S' i).adj a := by
  have i0 : ι := Classical.choice inferInstance
  have hR := hF.related hcongr hmix
  have hrun := fun i => ((bindExpr_bnd (s := s i) (jv := jv i) (ja := ja i) (map_wf (rd i) hwf) ((map_alive _).2 (hal i))
    (by rw [map_bindSize]; exact hf i)).mono (hS i).1 (hS i).2).gautodiff (m := (S i).val) (fun _ _ => rfl) (seed i)
  choose S' r h using hrun
  have hm : ∀ a ∈ e.reads, R (m a) fun i => (S i).val a := fun a ha => hval a (Finset.mem_union.2 (reads_cells e a ha))
  have hin' : (e.map fun x => x).Inside realDoms m := by rwa [map_id]
  have hex := fun k hk => (related_exact (fun x => x) rd hR hrd e hwf hin' hm k hk).1
  have hpo := fun k hk => related_post (fun x => x) rd hR hrd e hwf hin' hm k hk
  have hden := exact_eq_denote hwf hin
  simp only [map_id] at hex hpo
  have hpost := fun hs k hk => post_real hwf (hal i0) (hf i0) m hs (k := k) hk
  refine ⟨S', r, fun i => _, fun i => ⟨(h i).run, by rw [← map_size (rd i) e]; exact (h i).value⟩, fun k hk => ?_, fun a ha => ?_⟩
  · simp only [map_size, map_shape]
    by_cases hs : e.shape.isScl = true
    · simp only [hs, if_true, trunc_of_lt hk, ← hden]
      exact hex k hk
    · simp only [hs, trunc_of_lt hk, ← hpost hs k hk]
      exact hpo k hk
  · have h1 := related_gback (fun x => x) rd hR hrd e hwf hin' hm σ seed hseed a (d a) (fun i => (S i).adj a) (hadj a ha)
    rw [map_id, gback_real hwf (hal i0) (hf i0) m σ ha (d a)] at h1
    refine hcongr h1 (Eventually.of_forall fun i => ?_)
    refine ((h i).adj a ?_).symm
    rw [map_bindSize]
    exact notin_blockA (hf i) (adjCells_alive (hal i) a ha)

/-- a family of runs of the same program in arithmetics that approximate the real numbers -/
theorem approx_program [LawfulLinAlg] [Nonempty ι] (hF : Approx φ F R) (hcongr : ∀ {x : ℝ} {c d : ∀ i, F i}, R x c → (∀ᶠ i in φ, c i = d i) → R x d)
    (hmix : ∀ {x : ℝ} {c d : ∀ i, F i} (p : ι → Bool), R x c → R x d → R x fun i => if p i = true then c i else d i) {rd : ∀ i, ℝ → F i}
    (hrd : ∀ c, R c fun i => rd i c) {p : Expr ℝ} {m d : ℕ → ℝ} (hp : p.Program) (hin : InsideSeq realDoms p.flat m) {s S : ∀ i, St (F i)} {qv qa : ι → ℕ} {jv ja : ∀ i, ℕ → F i}
    (hal : ∀ i, p.Alive (s i).vok (s i).aok) (hf : ∀ i, Fresh (s i) p.bindSize (qv i) (qa i))
    (hS : ∀ i, Later (bindExpr (p.map (rd i)) (qv i) (qa i) (jv i) (ja i) (s i)).2 (S i))
    (hval : ∀ c ∈ (p.valCells ∪ p.constCells) \ p.placeCells, R (m c) fun i => (S i).val c) (hadj : ∀ a ∈ p.adjCells, R (d a) fun i => (S i).adj a)
    {σ : ℕ → ℝ} {seed : ∀ i, ℕ → F i} (hseed : ∀ k < p.size, R (σ k) fun i => seed i k) :
    ∃ (S' : ∀ i, St (F i)) (r : ∀ i, Ref (F i)) (y : ∀ i, ℕ → F i),
      (∀ i, autodiff (bindExpr (p.map (rd i)) (qv i) (qa i) (jv i) (ja i) (s i)).1 (seed i) (S i) = some (S' i, r i) ∧ (r i).read (S' i) p.size = some (y i)) ∧
      (p.shape.isScl = true → R (p.result m 0) fun i => y i 0) ∧ ∀ a ∈ p.adjCells, R (backL p.flat m σ d a) fun i => (S' i).adj a := by
  have i0 : ι := Classical.choice inferInstance
  have hR := hF.related hcongr hmix
  have hrun := fun i => (later_prog (map_program (rd i) hp) ((map_alive _).2 (hal i)) (by rw [map_bindSize]; exact hf i) (hS i)).gautodiff (m := (S i).val)
    (K := (p.map (rd i)).known) (known_block ((map_alive _).2 (hal i)) (by rw [map_bindSize]; exact hf i)) (map_program (rd i) hp).needOk (fun _ _ => rfl) (map_program (rd i) hp).shapeOk (seed i)
  choose S' r h using hrun
  have hm : ∀ a ∈ p.known, R (m a) fun i => (S i).val a := fun a ha => hval a (Finset.mem_coe.1 ha)
  have hin' : InsideSeq realDoms (p.flat.map (Expr.map fun x => x)) m := by rwa [list_map_id]
  have hsz : sizeR p.flat = p.size := by
    have := List.getLast?_eq_getLast_of_ne_nil hp.nonempty
    rw [sizeR_last _ this, Expr.size, Expr.size, shape_last p hp.tree _ this]
  have hL := related_execL (fun x => x) rd hR hrd p.flat p.known m (fun i => (S i).val) hp.stmts hp.needOk hin' hm
  have hG := related_gbackL (fun x => x) rd hR hrd (fun y (hy : y ≠ 0) => mul_ne_zero hy hy) (DA := (p.adjCells : Set ℕ)) (A := d) (A' := fun i => (S i).adj)
    (fun a ha => hadj a (Finset.mem_coe.1 ha)) p.flat p.known m (fun i => (S i).val) (fun x hx => ⟨hp.stmts x hx, (hp.lite x hx).2⟩) hp.needOk hin' hm (by rwa [hsz])
  simp only [← map_flat, map_id] at hL hG
  refine ⟨S', r, fun i => _, fun i => ⟨(h i).run, by rw [← map_size (rd i) p]; exact (h i).value⟩, fun hs => ?_, fun a ha => ?_⟩
  · have h1 : p.size = 1 := hp.shapeOk.size_scl hs
    have h0 : 0 < p.size := by omega
    simp only [map_size, map_shape, hs, if_true, trunc_of_lt h0, result_tree p hp.tree hp.nonempty, ← (exactL_real p.flat m hp.stmts hin).1]
    exact hL.2 0 (by rwa [hsz])
  · have h1 := hG a (Finset.mem_coe.2 ha)
    rw [gbackL_real hp (hal i0) (hf i0) m σ d ha] at h1
    refine hcongr h1 (Eventually.of_forall fun i => ?_)
    refine ((h i).adj a ?_).symm
    rw [map_bindSize]
    exact notin_blockA (hf i) (adjCells_alive (hal i) a ha)

/-! ### From orders to bounds -/

omit [HasInf ℝ] [LinAlg ℝ] in
/-- finitely many errors of order `ε` have a common bound -/
theorem near_bound {ε M : ι → ℝ} (hε : ∀ i, 0 < ε i) {T : Type} (fs : Finset T) {f : T → ι → ℝ} (hf : ∀ t ∈ fs, f t =O[comap ε (𝓝 0) ⊓ comap M atTop] ε) :
    ∃ C δ K : ℝ, 0 < δ ∧ ∀ i, ε i < δ → K ≤ M i → ∀ t ∈ fs, |f t i| ≤ C * ε i := by
  classical
  induction fs using Finset.induction_on with
  | empty => exact ⟨0, 1, 0, one_pos, by simp⟩
  | insert t fs _ ih =>
    obtain ⟨C, δ, K, h0, h⟩ := ih fun t ht => hf t (Finset.mem_insert_of_mem ht)
    obtain ⟨C', hC'⟩ := (hf t (Finset.mem_insert_self _ _)).bound
    obtain ⟨⟨δ', K'⟩, ⟨h0', -⟩, h'⟩ := ((Metric.nhds_basis_ball.comap ε).inf (atTop_basis.comap M)).eventually_iff.1 hC'
    refine ⟨max C C', min δ δ', max K K', lt_min h0 h0', fun i hi hK t' ht' => ?_⟩
    rcases Finset.mem_insert.1 ht' with rfl | ht'
    · have := h' (x := i) ⟨by simpa [abs_of_pos (hε i)] using hi.trans_le (min_le_right _ _), (le_max_right _ _).trans hK⟩
      rw [Real.norm_eq_abs, Real.norm_eq_abs, abs_of_pos (hε i)] at this
      exact this.trans (mul_le_mul_of_nonneg_right (le_max_right _ _) (hε i).le)
    · exact (h i (hi.trans_le (min_le_left _ _)) ((le_max_left _ _).trans hK) t' ht').trans (mul_le_mul_of_nonneg_right (le_max_left _ _) (hε i).le)

end FastAD
