import Verif.Proof.Smooth
import Verif.Props.Hessian

/-!
# The Hessian matrix is symmetric

Property C55, continued.
-/

open Filter Topology
open scoped ContDiff

namespace FastAD

variable [HasInf ℝ] [LinAlg ℝ] [HasInf (Dual ℝ)] [LinAlg (Dual ℝ)]

/-- **C55, symmetry.** The matrix that `hessian_gen` returns is symmetric, although its entries (i, j) and (j, i) are computed in different rounds, by the reverse sweep over different tangents. -/
theorem C55_hessian_symmetric_partial [LawfulLinAlg] {e : Expr ℝ} {m : ℕ → ℝ} (hwf : e.WF) (hscl : e.shape = .scl) (hi : e.Inside fwdDoms m) {s S : St (Dual ℝ)} {qv qa : ℕ} {jv ja : ℕ → Dual ℝ}
    (hal : e.Alive s.vok s.aok) (hf : Fresh s e.bindSize qv qa)
    (hSv : ∀ a, (bindExpr (e.map Dual.ofVal) qv qa jv ja s).2.vok a = true → S.vok a = true)
    (hSa : ∀ a, (bindExpr (e.map Dual.ofVal) qv qa jv ja s).2.aok a = true → S.aok a = true)
    (hval : ∀ c ∈ e.valCells ∪ e.constCells, S.val c = ⟨m c, 0⟩) {p q n : ℕ} (hp : ∀ k < n, s.vok (p + k) = true) (hq : ∀ k < n, s.aok (q + k) = true)
    {π : ℕ → ℕ} (hπ : e.Paired π) (hinj : Set.InjOn π e.adjCells) (hc : ∀ a ∈ e.adjCells, π a ∉ e.constCells) (hx : ∀ j < n, q + j ∈ e.adjCells → π (q + j) = p + j) :
    ∃ S' out, hessian (bindExpr (e.map Dual.ofVal) qv qa jv ja s).1 p q n S = some (S', out) ∧ ∃ hl : out.length = n, ∀ (i j : ℕ) (hi : i < n) (hj : j < n), q + i ∈ e.adjCells → q + j ∈ e.adjCells →
      (out[i]'(hl ▸ hi)).2 j = (out[j]'(hl ▸ hj)).2 i := by
  obtain ⟨S', out, h1, hl, h⟩ := C55_hessian_partial hwf hscl hi hal hf hSv hSa hval hp hq hπ hinj hc hx
  refine ⟨S', out, h1, hl, fun i j hi' hj' hai haj => ?_⟩
  by_cases hij : i = j
  · subst hij; rfl
  obtain ⟨D, hD, hd⟩ := (h i (hl ▸ hi')).2.1 j hj' haj
  obtain ⟨D', hD', hd'⟩ := (h j (hl ▸ hj')).2.1 i hi' hai
  have hne : p + j ≠ p + i := by omega
  have hsz : 0 < e.size := by rw [Expr.size, hscl]; exact Nat.one_pos
  let ρ : ℝ × ℝ → ℕ → ℝ := fun z => Function.update (Function.update m (p + i) (m (p + i) + z.1)) (p + j) (m (p + j) + z.2)
  have hρ : ∀ a, ContDiff ℝ ∞ fun z => ρ z a := by
    intro a
    by_cases h1 : a = p + j
    · subst h1
      simp only [ρ, Function.update_self]
      fun_prop
    · by_cases h2 : a = p + i
      · subst h2
        simp only [ρ, Function.update_of_ne h1, Function.update_self]
        fun_prop
      · simp only [ρ, Function.update_of_ne h1, Function.update_of_ne h2]
        fun_prop
  have h0 : ρ 0 = m := by
    funext a
    by_cases h1 : a = p + j
    · subst h1; simp [ρ]
    · by_cases h2 : a = p + i
      · subst h2; simp [ρ, Function.update_of_ne h1]
      · simp [ρ, Function.update_of_ne h1, Function.update_of_ne h2]
  have hg := denote_smooth hwf (inside_fwd_plain hwf hi) (inside_fwd_real hwf hi) h0 hρ hsz
  have tr : ∀ c : ℝ, Tendsto (fun x : ℝ => c + x) (𝓝 0) (𝓝 c) := fun c => by
    have : Continuous fun x : ℝ => c + x := by fun_prop
    simpa using this.tendsto 0
  have dr : ∀ {f : ℝ → ℝ} {d c : ℝ}, HasDerivAt f d c → HasDerivAt (fun x => f (c + x)) d 0 := fun {f d c} h => by
    have h2 : HasDerivAt f d (c + 0) := by rwa [add_zero]
    simpa using h2.comp_const_add c 0
  refine mixed_eq hg (D := fun x => D (m (p + i) + x)) (D' := fun y => D' (m (p + j) + y)) ?_ ?_ (dr hd) (dr hd')
  · filter_upwards [(tr _).eventually hD] with x hx
    rw [Function.update_of_ne hne] at hx
    exact dr hx
  · filter_upwards [(tr _).eventually hD'] with y hy
    rw [Function.update_of_ne hne.symm] at hy
    have := dr hy
    refine this.congr_of_eventuallyEq (.of_forall fun x => ?_)
    show e.denote _ 0 = e.denote _ 0
    rw [Function.update_comm hne]

namespace HessianSample

/-- the Hessian of `sin(x[0]) + x[0]*x[0] + x[1]*x[1] + cos(x[2]*x[3])` at (1, 2, 3, 4): entries (2, 3) and (3, 2) are equal -/
example [LawfulLinAlg] :
    ∃ S' out, hessian (bindExpr (H.map Dual.ofVal) 10 10 0 0 s).1 0 0 4 (bindExpr (H.map Dual.ofVal) 10 10 0 0 s).2 = some (S', out) ∧
      ∃ h : out.length = 4, (out[2]).2 3 = (out[3]).2 2 := by
  have hcell : ∀ c ∈ H.valCells ∪ H.constCells, c < 4 := by decide
  obtain ⟨S', out, h1, h2, h3⟩ := C55_hessian_symmetric_partial (e := H) (m := m0) H_wf rfl
    (by simp [H, x, Expr.mkBinary, Expr.mkUnary, Expr.Inside, fwdDoms, UOp.DomAt]) (s := s) (qv := 10) (qa := 10) (jv := 0) (ja := 0) H_alive
    (by constructor <;> intro k _ <;> simp [s] <;> omega) (fun a h => h) (fun a h => h)
    (fun c hc => by
      have := hcell c hc
      exact if_neg (by omega))
    (p := 0) (q := 0) (n := 4) (fun k hk => by simpa [s] using hk) (fun k hk => by simpa [s] using hk) (π := id)
    (by
      intro w hw k hk
      simp only [H, x, Expr.mkBinary, Expr.mkUnary, Expr.vars, List.mem_append, List.mem_singleton, or_self] at hw
      rcases hw with ((rfl | rfl) | rfl) | rfl | rfl <;> rfl)
    (Set.injOn_id _) (fun a _ => by simp [H, x, Expr.mkBinary, Expr.mkUnary, Expr.constCells, Expr.cviews]) (fun j _ _ => rfl)
  exact ⟨S', out, h1, h2, h3 2 3 (by decide) (by decide) (by decide) (by decide)⟩

end HessianSample

end FastAD
