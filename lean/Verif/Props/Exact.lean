import Verif.Props.Nodes
import Verif.Props.Stat
import Verif.Proof.Exact

/-!
# What exactly the code does where C20 and C23 fail

Properties C20, C23.
-/

namespace FastAD

variable [HasInf ℝ] [LinAlg ℝ]

/-- **C20, singular matrices.**  For every operand, policy (under its precondition) and seed, `det(e)` of a singular matrix evaluates to 0 and its backward pass adds nothing to
any adjoint, whereas the derivative of the determinant with respect to the entry `(i, j)` is the cofactor `adjugate j i`.  So the result is right exactly if all
cofactors vanish, in particular wrong for every singular matrix of rank one less than its size. -/
theorem C20_singular_partial [LawfulLinAlg] {p : Decomp} {e : Expr ℝ} {s : St ℝ} (hwf : (Expr.mkReduce (.det p) (.cons e .nil)).WF) (hal : e.Alive s.vok s.aok) {n : ℕ}
    (he : e.shape.rows = n) (hpre : p.Pre n (e.denote s.val)) (hdet : (matOf n n (e.denote s.val)).det = 0) (seed : ℕ → ℝ) :
    Behaves (.mkReduce (.det p) (.cons e .nil)) s (fun _ => 0) seed (fun _ => 0) ∧
    ∀ i j, HasDerivAt (fun t => ((matOf n n (e.denote s.val)).updateRow i (Function.update (matOf n n (e.denote s.val) i) j t)).det)
      ((matOf n n (e.denote s.val)).adjugate j i) (matOf n n (e.denote s.val) i j) := by
  subst he
  have hal' : (Expr.mkReduce (.det p) (.cons e .nil) : Expr ℝ).Alive s.vok s.aok :=
    alive_append hal (fun v hv => by simpa [Expr.mkReduce, Expr.vars, Exprs.varss] using hv) fun c hc => by simpa [Expr.mkReduce, Expr.cviews, Exprs.cviewss] using hc
  have hsq : e.shape.rows = e.shape.cols := (reduce_single hwf).1.2
  have hval := (det_real_eq p e.shape hsq _ (decomp_ok hsq hpre)).1
  exact ⟨(behaves hwf hal' seed).congr (fun _ _ => hval.trans hdet) (det_invalid (det_singular_invalid hsq hpre hdet) seed), hasDerivAt_det_entry _⟩

/-- it applies to `A = (1 0; 0 0)` with the LU policy; the cofactor of the last entry is 1 -/
example [LawfulLinAlg] (seed : ℕ → ℝ) : Behaves (.mkReduce (.det .lu) (.cons (.var Sample.A) .nil)) Sample.sB (fun _ => 0) seed (fun _ => 0) ∧
    (matOf 2 2 ((Expr.var Sample.A).denote Sample.sB.val)).adjugate 1 1 = 1 := by
  refine ⟨(C20_singular_partial (p := .lu) (s := Sample.sB) (e := .var Sample.A) ⟨⟨trivial, trivial⟩, rfl, .inl ⟨_, rfl, ⟨rfl, rfl⟩, fun h => by cases h⟩⟩
    (Sample.alive_sA (fun w hw => by simp [Expr.vars] at hw; exact .inr (.inr hw)) rfl) rfl trivial ?_ seed).1, ?_⟩
  · show (matOf 2 2 ((Expr.var Sample.A).denote Sample.sB.val)).det = 0
    simp [Matrix.det_fin_two, matOf, Expr.denote, Sample.A, Sample.sB, addr]
  · simp [Matrix.adjugate_fin_two, matOf, Expr.denote, Sample.A, Sample.sB, addr]

omit [LinAlg ℝ] in
/-- **C23, vector x and scalar scale, any seed.**  There is a gradient `g` of the log-density (the seeds of seed 1) such that with any seed, `x` receives `seed * g`, the
location `seed² * g`, and the scale `seed² * g + (seed² - seed) * n / scale`.  (The property demands `seed * g` for all three.) -/
theorem C23_seed_twice_scalar_scale_partial (sl : Bool) (k : Kinds) (n : ℕ) {v : Args ℝ} (hv : ScaleOk true n v) (c : (cauchyScl (α := ℝ) sl n).Cache) :
    ∃ g, SeedGradient k (sdim sl true n) (fun _ => True) (orNegInf (ScaleOk true n) (cauchyLog sl true n)) v 1 g ∧
      ∀ seed i, seedOf ((cauchyScl sl n).beval c v seed) .x i = seed * seedOf g .x i ∧
        seedOf ((cauchyScl sl n).beval c v seed) .a i = seed ^ 2 * seedOf g .a i ∧
        seedOf ((cauchyScl sl n).beval c v seed) .b i = seed ^ 2 * seedOf g .b i + (seed ^ 2 - seed) * (n / v.b 0) := by
  obtain ⟨_, c', -, -, h3⟩ := cauchyScl_computes sl k n v [] v trivial (fun w hw => ⟨trivial, by simp at hw; subst hw; exact fun _ _ => rfl⟩) trivial
  exact ⟨_, (h3 1 (.inr rfl)).1 hv trivial, cauchyScl_seed sl n hv c⟩

omit [LinAlg ℝ] in
/-- **C23, vector x and vector scale, any seed.**  As above; coefficient `i` of the scale receives `seed² * g + (seed² - seed) / scale i`. -/
theorem C23_seed_twice_vector_scale_partial (sl : Bool) (k : Kinds) (n : ℕ) {v : Args ℝ} (hv : ScaleOk false n v) (c : (cauchyVec (α := ℝ) sl n).Cache) :
    ∃ g, SeedGradient k (sdim sl false n) (fun _ => True) (orNegInf (ScaleOk false n) (cauchyLog sl false n)) v 1 g ∧
      ∀ seed i, seedOf ((cauchyVec sl n).beval c v seed) .x i = seed * seedOf g .x i ∧
        seedOf ((cauchyVec sl n).beval c v seed) .a i = seed ^ 2 * seedOf g .a i ∧
        seedOf ((cauchyVec sl n).beval c v seed) .b i = seed ^ 2 * seedOf g .b i + (seed ^ 2 - seed) * (1 / v.b i) := by
  obtain ⟨_, c', -, -, h3⟩ := cauchyVec_computes sl k n v [] v trivial (fun w hw => ⟨trivial, by simp at hw; subst hw; exact fun _ _ => rfl⟩) trivial
  exact ⟨_, (h3 1 (.inr rfl)).1 hv trivial, cauchyVec_seed sl n hv c⟩

/-- both apply to three observations 0, 1, 2 with locations 0, 2, 4 and scales 1, 2, 3 -/
example : ScaleOk true 3 (⟨fun i => i, fun i => 2 * i, fun i => i + 1⟩ : Args ℝ) ∧ ScaleOk false 3 (⟨fun i => i, fun i => 2 * i, fun i => i + 1⟩ : Args ℝ) :=
  ⟨fun i _ => by positivity, fun i _ => by positivity⟩

end FastAD
