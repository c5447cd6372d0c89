import Verif.Proof.Inline
import Verif.Proof.StatExpr
import Verif.Props.Samples

/-!
# Placeholders are transparent

Property C43: introducing placeholders changes neither the value nor the derivatives.
-/

namespace FastAD

variable [HasInf ℝ] [LinAlg ℝ]

/-- **C43 (partial).** Let `p` be a program consisting of the placeholder assignments `w₁ = r₁, …, wₙ = rₙ` and a final expression `e` (grouped in any way by
`operator,` and `for_each`), and let `p'` be the expression without placeholders in which every mention of `wᵢ` is replaced by `rᵢ`.  Then `p'` is well-formed; and if both are bound
(somewhere) and differentiated with the same seed in states of memory that agree on the values of the variables other than the placeholders, and the adjoints of the placeholders are zero,
then both passes are defined, both return the same value, and both add the same to every adjoint other than those of the placeholders.  No differentiability is required.
Missing: right-hand sides whose backward pass is not linear in the seed (a negative power of 0, or Cauchy densities of vectors of observations), see `C43_false_for_cauchy`. -/
theorem C43_inline_partial {p e : Expr ℝ} {ss : List (View × Expr ℝ)} {s s1 s' s1' : St ℝ} {qv qa qv' qa' : ℕ} {jv ja jv' ja' : ℕ → ℝ}
    (hp : p.Program) (hflat : p.flat = ss.map (fun x => .mkEq x.1 x.2) ++ [e]) (he : e.WF)
    (hop : ∀ x ∈ ss, x.2.IsOp) (hsep : ∀ x ∈ ss, p.Separates x.1)
    (hal : p.Alive s.vok s.aok) (hf : Fresh s p.bindSize qv qa) (hl : Later (bindExpr p qv qa jv ja s).2 s1)
    (hal' : (inline ss e).Alive s'.vok s'.aok) (hf' : Fresh s' (inline ss e).bindSize qv' qa') (hl' : Later (bindExpr (inline ss e) qv' qa' jv' ja' s').2 s1')
    (hz : ∀ a ∈ p.targetAdj, s1.adj a = 0) (hpole : NoPoleL ss s1.val)
    (hag : ∀ c ∈ (inline ss e).valCells ∪ (inline ss e).constCells, s1'.val c = s1.val c) (seed : ℕ → ℝ) :
    (inline ss e).WF ∧ (∀ x ∈ ss, ∀ u ∈ (inline ss e).vars, u.Apart x.1) ∧
    ∃ s2 r s2' r', autodiff (bindExpr p qv qa jv ja s).1 seed s1 = some (s2, r) ∧
      autodiff (bindExpr (inline ss e) qv' qa' jv' ja' s').1 seed s1' = some (s2', r') ∧
      (∃ f, r.read s2 p.size = some f ∧ r'.read s2' p.size = some f) ∧
      ∀ a, s.aok a = true → s'.aok a = true → a ∉ p.targetAdj → s2.adj a - s1.adj a = s2'.adj a - s1'.adj a := by
  have hspec := (flat_spec p hp.tree).1
  have hmem : ∀ y, y ∈ placed ss e → y ∈ p.flat := fun y hy => by rw [hflat]; exact hy
  have hlast : e ∈ p.flat := by rw [hflat]; simp
  have hinl : Inl ss e :=
    ⟨he, fun x hx => (hspec _ (hmem _ (mem_placed hx))).1, hop, by rw [placed, ← hflat]; exact hp.order,
      fun x hx y hy => ⟨fun u hu => (hsep x hx).1 u ((hspec y (hmem y hy)).2.1 u hu), fun c hc => (hsep x hx).2 c ((hspec y (hmem y hy)).2.2 c hc)⟩⟩
  have hwf := hinl.inline_wf
  have hest : e.isIf = false ∧ e.NotConst := by
    have := (hspec e hlast).1
    cases e <;> first | exact he.elim | exact this.2
  have hstmt : (inline ss e).WFStmt := by
    have h1 := hinl.isIf.trans hest.1
    have h2 := hinl.notConst hest.2
    revert hwf h1 h2
    generalize inline ss e = q
    intro hwf h1 h2
    cases q <;> first | exact hwf.elim | exact ⟨hwf, h1, h2⟩
  have hflat' : (inline ss e).flat = [inline ss e] := hwf.flat
  have hp' : (inline ss e).Program := by
    refine ⟨?_, by rw [hflat']; simp, by rw [hflat']; simp⟩
    revert hwf hstmt
    generalize inline ss e = q
    intro hwf hstmt
    cases q <;> first | exact hwf.elim | exact hstmt
  have hsz : p.size = e.size := by
    rw [← sizeR_flat hp.tree hp.nonempty, hflat]
    exact sizeR_last _ (by simp)
  have hsz' : (inline ss e).size = e.size := by rw [Expr.size, hinl.shape]; rfl
  have stable : ∀ q : Expr ℝ, (∀ x ∈ q.flat, x.updated = none) → q.Stable := by
    intro q hq
    have h0 : q.updatedCells = ∅ := by
      have : q.flat.filterMap Expr.updated = [] := List.filterMap_eq_nil_iff.2 hq
      simp [Expr.updatedCells, this]
    refine Or.inr fun x _ => ?_
    rw [h0]
    cases x <;> simp [Expr.StoredOutside]
  have pure : ∀ q : Expr ℝ, q.WF → q.updated = none := fun q hq => by cases q <;> first | rfl | exact hq.elim
  obtain ⟨s2, r, h⟩ := later_autodiff hp hal hf hl seed
  obtain ⟨s2', r', h'⟩ := later_autodiff hp' hal' hf' hl' seed
  obtain ⟨m1, m2⟩ := hinl.main s1.val hpole
  have hres : p.result s1.val = resultL (placed ss e) s1.val := by
    rw [placed, ← hflat]; exact funext (result_tree p hp.tree hp.nonempty s1.val)
  refine ⟨hwf, fun x hx u hu => ?_, s2, r, s2', r', h.run, h'.run, ⟨trunc p.size (p.result s1.val), ?_, ?_⟩, fun a ha ha' hat => ?_⟩
  · obtain ⟨y, -, -, h3⟩ := hinl.vars.1 u hu
    exact h3 x hx
  · refine h.value (stable p fun x hx => ?_)
    rw [hflat] at hx
    rcases List.mem_append.1 hx with hx | hx
    · obtain ⟨y, -, rfl⟩ := List.mem_map.1 hx
      rfl
    · rw [List.mem_singleton.1 hx]; exact pure e he
  · have hv := h'.value (stable _ fun x hx => by
      rw [hflat'] at hx
      rw [List.mem_singleton.1 hx]
      exact pure _ hwf)
    rw [hsz] at *
    rw [hsz'] at hv
    rw [hv]
    congr 1
    refine trunc_congr fun k hk => ?_
    rw [hwf.result, hres, m1 k hk]
    refine denote_congr _ hwf (fun c hc => ?_) k (by rw [hsz']; exact hk)
    rcases reads_cells _ c hc with hc | hc
    · exact hag c (Finset.mem_union.2 (Or.inl hc))
    · exact hag c (Finset.mem_union.2 (Or.inr hc))
  · rw [h.adj a (fresh_block hf.2 ha), h'.adj a (fresh_block hf'.2 ha'), hflat', hflat]
    have ht : ∀ x ∈ ss, ∀ b ∈ rng x.1.adj x.1.size, b ∈ p.targetAdj := fun x hx b hb =>
      mem_targetAdj.2 ⟨_, hmem _ (mem_placed hx), x.1, rfl, hb⟩
    have e1 := m2 seed s1.adj (fun x hx k hk => hz _ (ht x hx _ (add_mem_rng hk))) a fun x hx hb => hat (ht x hx a hb)
    rw [placed] at e1
    rw [e1]
    have e2 : backL [inline ss e] s1'.val seed s1'.adj a = s1'.adj a + (inline ss e).grad s1'.val seed a := by
      simp only [backL, List.isEmpty_nil, if_true]
      revert hwf
      generalize inline ss e = q
      intro hwf
      cases q <;> first | exact hwf.elim | rfl
    rw [e2, grad_store_congr hwf hag]
    ring

/-! ### An example -/

namespace SampleInl

/-- the scalar variable with value cell and adjoint cell `i` -/
def sv (i : ℕ) : View := ⟨.scl, some i, some i⟩

/-- `w₁ = x * y, w₂ = sin(w₁) * w₁` -/
def ss : List (View × Expr ℝ) :=
  [(sv 2, .mkBinary .mul (.var (sv 0)) (.var (sv 1))), (sv 3, .mkBinary .mul (.mkUnary .sin (.var (sv 2))) (.var (sv 2)))]

/-- `w₂ * w₁ + exp(w₁)` -/
def e : Expr ℝ := .mkBinary .add (.mkBinary .mul (.var (sv 3)) (.var (sv 2))) (.mkUnary .exp (.var (sv 2)))

/-- `w₁ = x * y, w₂ = sin(w₁) * w₁, w₂ * w₁ + exp(w₁)` -/
def p : Expr ℝ :=
  .mkGlue (.mkGlue (.mkEq (sv 2) (.mkBinary .mul (.var (sv 0)) (.var (sv 1)))) (.mkEq (sv 3) (.mkBinary .mul (.mkUnary .sin (.var (sv 2))) (.var (sv 2))))) e

/-- memory holding x = 2, y = 3; everything from cell 4 on is free -/
noncomputable def t : St ℝ := ⟨fun a => (a : ℝ) + 2, fun _ => 0, fun a => decide (a < 4), fun a => decide (a < 4)⟩

omit [HasInf ℝ] [LinAlg ℝ] in
theorem p_flat : p.flat = ss.map (fun x => .mkEq x.1 x.2) ++ [e] := rfl

omit [HasInf ℝ] [LinAlg ℝ] in
theorem e_wf : e.WF := by
  refine ⟨⟨?_, ?_, ?_, ?_, ?_⟩, ⟨?_, ?_, ?_⟩, ?_, ?_, ?_⟩ <;>
    simp [Expr.WF, Expr.mkBinary, Expr.mkUnary, Expr.shape, Expr.view, View.null, Expr.binShape, Shape.ofDims, Shape.maxKind, sv, Shape.scl, Shape.Ok,
      binDimsOk, sameDims, Shape.isScl, Expr.isIf]
  all_goals decide

omit [HasInf ℝ] [LinAlg ℝ] in
theorem p_program : p.Program := by
  have h1 : (Expr.mkEq (sv 2) (.mkBinary .mul (.var (sv 0)) (.var (sv 1))) : Expr ℝ).WFStmt := by
    refine ⟨⟨?_, ?_, ?_, ?_, ?_⟩, ?_, ?_, ?_, ?_, ?_⟩ <;>
      simp [Expr.WF, Expr.mkBinary, Expr.shape, Expr.view, View.null, Expr.binShape, Shape.ofDims, Shape.maxKind, sv, Shape.scl, Shape.Ok,
        binDimsOk, sameDims, Shape.isScl, Expr.isIf, Expr.Assignable, BOp.isComparison, View.size, Shape.size]
    all_goals decide
  have h2 : (Expr.mkEq (sv 3) (.mkBinary .mul (.mkUnary .sin (.var (sv 2))) (.var (sv 2))) : Expr ℝ).WFStmt := by
    refine ⟨⟨⟨?_, ?_, ?_⟩, ?_, ?_, ?_, ?_⟩, ?_, ?_, ?_, ?_, ?_⟩ <;>
      simp [Expr.WF, Expr.mkBinary, Expr.mkUnary, Expr.shape, Expr.view, View.null, Expr.binShape, Shape.ofDims, Shape.maxKind, sv, Shape.scl, Shape.Ok,
        binDimsOk, sameDims, Shape.isScl, Expr.isIf, Expr.Assignable, BOp.isComparison, View.size, Shape.size]
    all_goals decide
  have h3 : e.WFStmt := ⟨e_wf, rfl, by simp [e, Expr.mkBinary, Expr.NotConst]⟩
  refine ⟨⟨⟨h1, h2, by simp [Expr.flat, Expr.mkEq], rfl⟩, h3, by simp [Expr.flat, e, Expr.mkBinary], rfl⟩, ?_, by simp [p, Expr.flat, Expr.mkGlue, e, Expr.mkBinary]⟩
  rw [p_flat]
  simp [ss, UsedAfter, Expr.mkEq, Expr.mkBinary, Expr.mkUnary, Expr.placeholder, sv, e, Expr.vars, Expr.cviews, Expr.valCells]
  all_goals decide

omit [HasInf ℝ] [LinAlg ℝ] in
theorem alive {q : Expr ℝ} (h1 : ∀ u ∈ q.vars, ∃ i < 4, u = sv i) (h2 : q.cviews = []) {m : ℕ → ℝ} {A : ℕ → ℝ} :
    q.Alive (St.mk m A t.vok t.aok).vok (St.mk m A t.vok t.aok).aok := by
  constructor
  · intro u hu
    obtain ⟨i, hi, rfl⟩ := h1 u hu
    constructor <;> intro k hk <;> simp [sv, View.size, Shape.size, Shape.scl, t] at hk ⊢ <;> omega
  · intro c hc; rw [h2] at hc; cases hc

omit [HasInf ℝ] [LinAlg ℝ] in
theorem fresh (n : SizePack) : Fresh t n 10 10 := by
  constructor <;> intro k _ <;> simp [t] <;> omega

omit [HasInf ℝ] [LinAlg ℝ] in
theorem apart {i j : ℕ} (h : i ≠ j) : (sv i).Apart (sv j) := by
  intro a ha b hb
  simp [sv, View.size, Shape.size, Shape.scl, addr] at ha hb ⊢
  omega

omit [HasInf ℝ] [LinAlg ℝ] in
theorem separates {q : Expr ℝ} (h1 : ∀ u ∈ q.vars, ∃ i < 4, u = sv i) (h2 : q.cviews = []) (j : ℕ) : q.Separates (sv j) := by
  refine ⟨fun u hu => ?_, fun c hc => by rw [h2] at hc; cases hc⟩
  obtain ⟨i, -, rfl⟩ := h1 u hu
  by_cases h : i = j
  · exact Or.inl (by rw [h])
  · exact Or.inr (apart h)

omit [HasInf ℝ] [LinAlg ℝ] in
theorem p_vars : ∀ u ∈ p.vars, ∃ i < 4, u = sv i := by
  intro u hu
  simp only [p, e, Expr.mkGlue, Expr.mkEq, Expr.mkBinary, Expr.mkUnary, Expr.vars, List.mem_append, List.mem_cons, List.not_mem_nil, or_false] at hu
  have : u = sv 0 ∨ u = sv 1 ∨ u = sv 2 ∨ u = sv 3 := by tauto
  rcases this with h | h | h | h
  exacts [⟨0, by omega, h⟩, ⟨1, by omega, h⟩, ⟨2, by omega, h⟩, ⟨3, by omega, h⟩]

end SampleInl

/-- C43 applied to `w₁ = x * y, w₂ = sin(w₁) * w₁, w₂ * w₁ + exp(w₁)`: it has the value and the derivatives of `(sin(x * y) * (x * y)) * (x * y) + exp(x * y)`. -/
example : inline SampleInl.ss SampleInl.e =
      (let xy := Expr.mkBinary .mul (.var (SampleInl.sv 0)) (.var (SampleInl.sv 1))
       .mkBinary .add (.mkBinary .mul (.mkBinary .mul (.mkUnary .sin xy) xy) xy) (.mkUnary .exp xy)) ∧
    ∃ s2 r s2' r', autodiff (bindExpr SampleInl.p 10 10 0 0 SampleInl.t).1 1 (bindExpr SampleInl.p 10 10 0 0 SampleInl.t).2 = some (s2, r) ∧
      autodiff (bindExpr (inline SampleInl.ss SampleInl.e) 10 10 0 0 SampleInl.t).1 1 (bindExpr (inline SampleInl.ss SampleInl.e) 10 10 0 0 SampleInl.t).2 = some (s2', r') ∧
      (∃ f, r.read s2 1 = some f ∧ r'.read s2' 1 = some f) ∧ s2.adj 0 = s2'.adj 0 ∧ s2.adj 1 = s2'.adj 1 := by
  refine ⟨rfl, ?_⟩
  have hc : (inline SampleInl.ss SampleInl.e).cviews = [] := by decide
  have hv : ∀ u ∈ (inline SampleInl.ss SampleInl.e).vars, ∃ i < 4, u = SampleInl.sv i := by
    have : (inline SampleInl.ss SampleInl.e).vars = [SampleInl.sv 0, SampleInl.sv 1, SampleInl.sv 0, SampleInl.sv 1, SampleInl.sv 0, SampleInl.sv 1, SampleInl.sv 0, SampleInl.sv 1] := by
      decide
    rw [this]
    intro u hu
    simp only [List.mem_cons, List.not_mem_nil, or_false] at hu
    have : u = SampleInl.sv 0 ∨ u = SampleInl.sv 1 := by tauto
    rcases this with h | h
    exacts [⟨0, by omega, h⟩, ⟨1, by omega, h⟩]
  obtain ⟨-, -, s2, r, s2', r', h1, h2, h3, h4⟩ := C43_inline_partial (s := SampleInl.t) (s' := SampleInl.t) (qv := 10) (qa := 10) (qv' := 10) (qa' := 10)
    (jv := 0) (ja := 0) (jv' := 0) (ja' := 0) SampleInl.p_program SampleInl.p_flat SampleInl.e_wf
    (by simp [SampleInl.ss, Expr.IsOp, Expr.mkBinary]) (fun x hx => by
      simp only [SampleInl.ss, List.mem_cons, List.not_mem_nil, or_false] at hx
      rcases hx with rfl | rfl <;> exact SampleInl.separates SampleInl.p_vars (by decide) _)
    (SampleInl.alive SampleInl.p_vars (by decide)) (SampleInl.fresh _) ⟨fun _ h => h, fun _ h => h⟩
    (SampleInl.alive hv hc) (SampleInl.fresh _) ⟨fun _ h => h, fun _ h => h⟩
    (fun a ha => by
      have : SampleInl.p.targetAdj = {2, 3} := by decide
      rw [this] at ha
      simp only [Finset.mem_insert, Finset.mem_singleton] at ha
      rcases ha with rfl | rfl <;> simp [bindExpr, St.allocate, fillRange, SampleInl.t])
    (by simp [SampleInl.ss, NoPoleL, Expr.mkBinary, Expr.mkUnary, Expr.NoPole])
    (fun c hc => by
      have : (inline SampleInl.ss SampleInl.e).valCells ∪ (inline SampleInl.ss SampleInl.e).constCells = {0, 1} := by decide
      rw [this] at hc
      simp only [Finset.mem_insert, Finset.mem_singleton] at hc
      rcases hc with rfl | rfl <;> simp [bindExpr, St.allocate, fillRange, SampleInl.t]) 1
  refine ⟨s2, r, s2', r', h1, h2, h3, ?_, ?_⟩
  · simpa [bindExpr, St.allocate, fillRange, SampleInl.t] using h4 0 (by simp [SampleInl.t]) (by simp [SampleInl.t]) (by decide)
  · simpa [bindExpr, St.allocate, fillRange, SampleInl.t] using h4 1 (by simp [SampleInl.t]) (by simp [SampleInl.t]) (by decide)

namespace SampleInl

/-- the log-density of one observation 1 with location `l` and scale 1, as a vector: `cauchy_adj_log_pdf(x, l, 1)` -/
def density : Expr ℝ :=
  .mkReduce (.stat (.cauchyScl true) ⟨.const, .leaf, .const⟩) (.cons (.const (.vec 1) fun _ => 1) (.cons (.var (sv 0)) (.cons (.const .scl fun _ => 1) .nil)))

/-- `w + w` -/
def twice : Expr ℝ := .mkBinary .add (.var (sv 2)) (.var (sv 2))

/-- `w = cauchy_adj_log_pdf(x, l, 1), w + w` -/
def cauchy : Expr ℝ := .mkGlue (.mkEq (sv 2) density) twice

omit [HasInf ℝ] [LinAlg ℝ] in
theorem density_wf : density.WF := by
  refine ⟨⟨?_, ?_, ?_, trivial⟩, rfl, .inr ⟨_, _, rfl, 1, rfl, rfl, rfl, ?_, ?_, trivial⟩⟩
  · rfl
  · exact ⟨rfl, rfl⟩
  · exact ⟨rfl, rfl⟩
  · simp [Exprs.toList, Expr.isIf]
  · simp [Exprs.toList, StatOp.slots, Expr.isConstView]

omit [HasInf ℝ] [LinAlg ℝ] in
theorem twice_wf : twice.WF := by
  refine ⟨?_, ?_, ?_, ?_, ?_⟩ <;>
    simp [Expr.WF, Expr.shape, Expr.view, View.null, Expr.binShape, Shape.ofDims, Shape.maxKind, sv, Shape.scl, Shape.Ok,
      binDimsOk, sameDims, Shape.isScl, Expr.isIf]
  all_goals decide

omit [HasInf ℝ] [LinAlg ℝ] in
theorem cauchy_flat : cauchy.flat = [(sv 2, density)].map (fun x => .mkEq x.1 x.2) ++ [twice] := rfl

omit [HasInf ℝ] [LinAlg ℝ] in
theorem cauchy_program : cauchy.Program := by
  have h1 : (Expr.mkEq (sv 2) density).WFStmt := by
    refine ⟨density_wf, ?_, ?_, ?_, ?_, ?_⟩ <;>
      simp [density, Expr.mkReduce, Expr.shape, Expr.view, View.null, sv, Shape.scl, Shape.Ok, Shape.isScl, Expr.isIf, Expr.Assignable, View.size, Shape.size]
    decide
  have h2 : twice.WFStmt := ⟨twice_wf, rfl, by simp [twice, Expr.mkBinary, Expr.NotConst]⟩
  refine ⟨⟨h1, h2, by simp [Expr.flat, twice, Expr.mkBinary], rfl⟩, ?_, by simp [cauchy, Expr.flat, Expr.mkGlue, twice, Expr.mkBinary]⟩
  rw [cauchy_flat]
  simp [UsedAfter, twice, Expr.mkBinary, Expr.placeholder]

omit [HasInf ℝ] [LinAlg ℝ] in
theorem cauchy_vars : ∀ u ∈ cauchy.vars, ∃ i < 4, u = sv i := by
  intro u hu
  simp only [cauchy, density, twice, Expr.mkGlue, Expr.mkEq, Expr.mkReduce, Expr.mkBinary, Expr.vars, Exprs.varss, List.mem_append, List.mem_cons, List.not_mem_nil, or_false, false_or] at hu
  have : u = sv 0 ∨ u = sv 2 := by tauto
  rcases this with h | h
  exacts [⟨0, by omega, h⟩, ⟨2, by omega, h⟩]

theorem density_grad (m : ℕ → ℝ) (hm : m 0 = 2) (seed : ℕ → ℝ) (hs : seed 0 ≠ 0) : density.grad m seed 0 = -(seed 0 * seed 0) := by
  simp [density, Expr.mkReduce, Expr.grad, Exprs.grads, Exprs.denotes, Expr.denote, RedOp.bmap, StatOp.bmap, statArgs, StatOp.node, StatNode.once, FastAD.cauchyScl, ret,
    slotOf, sv, addr, View.size, Shape.size, Shape.scl, Shape.vec, trunc, Fn.beq, Fn.blt, sumN_eq, hs, hm, Expr.shape, Expr.view, View.null]
  norm_num
  exact zero_add _

end SampleInl

/-- **C43 is false for the Cauchy densities of vectors**, whose backward pass uses the seed twice (cauchy.hpp:230-232): with `w = cauchy_adj_log_pdf(x, l, 1)` for the vector `x = (1)` and
`l = 2`, `w + w` gives `l` the adjoint -4, and `cauchy_adj_log_pdf(x, l, 1) + cauchy_adj_log_pdf(x, l, 1)` gives it -2.  All other assumptions of `C43_inline_partial` hold. -/
theorem C43_false_for_cauchy : SampleInl.cauchy.Program ∧ SampleInl.cauchy.flat = [(SampleInl.sv 2, SampleInl.density)].map (fun x => .mkEq x.1 x.2) ++ [SampleInl.twice] ∧
    SampleInl.twice.WF ∧ SampleInl.density.IsOp ∧ SampleInl.cauchy.Separates (SampleInl.sv 2) ∧
    inline [(SampleInl.sv 2, SampleInl.density)] SampleInl.twice = .mkBinary .add SampleInl.density SampleInl.density ∧
    SampleInl.cauchy.Alive SampleInl.t.vok SampleInl.t.aok ∧ Fresh SampleInl.t SampleInl.cauchy.bindSize 10 10 ∧
    (Expr.mkBinary .add SampleInl.density SampleInl.density).Alive SampleInl.t.vok SampleInl.t.aok ∧
    Fresh SampleInl.t (Expr.mkBinary .add SampleInl.density SampleInl.density).bindSize 10 10 ∧
    SampleInl.t.val 0 = 2 ∧ (∀ a, SampleInl.t.adj a = 0) ∧
    ∃ s2 r s2' r', autodiff (bindExpr SampleInl.cauchy 10 10 0 0 SampleInl.t).1 1 (bindExpr SampleInl.cauchy 10 10 0 0 SampleInl.t).2 = some (s2, r) ∧
      autodiff (bindExpr (.mkBinary .add SampleInl.density SampleInl.density) 10 10 0 0 SampleInl.t).1 1
        (bindExpr (.mkBinary .add SampleInl.density SampleInl.density) 10 10 0 0 SampleInl.t).2 = some (s2', r') ∧
      s2.adj 0 = -4 ∧ s2'.adj 0 = -2 := by
  have hwf : (Expr.mkBinary .add SampleInl.density SampleInl.density).WF :=
    ⟨SampleInl.density_wf, SampleInl.density_wf, ⟨rfl, rfl⟩, by simp [binDimsOk, sameDims, Shape.isScl, Expr.shape, Expr.view, SampleInl.density, Expr.mkReduce, View.null, Shape.scl, Expr.binShape, Shape.ofDims, Shape.maxKind], fun _ => ⟨by simp [SampleInl.density, Expr.mkReduce, Expr.isIf], by simp [SampleInl.density, Expr.mkReduce, Expr.isIf]⟩⟩
  have hal : SampleInl.cauchy.Alive SampleInl.t.vok SampleInl.t.aok := SampleInl.alive SampleInl.cauchy_vars (by decide)
  have hal' : (Expr.mkBinary .add SampleInl.density SampleInl.density).Alive SampleInl.t.vok SampleInl.t.aok :=
    SampleInl.alive (fun u hu => ⟨0, by omega, by
      simpa [SampleInl.density, Expr.mkBinary, Expr.mkReduce, Expr.vars, Exprs.varss] using hu⟩) (by decide)
  obtain ⟨s2, r, h⟩ := later_autodiff (jv := 0) (ja := 0) SampleInl.cauchy_program hal (SampleInl.fresh _) ⟨fun _ h => h, fun _ h => h⟩ 1
  obtain ⟨s2', r', h'⟩ := bindExpr_autodiff (jv := 0) (ja := 0) hwf hal' (SampleInl.fresh _) 1
  refine ⟨SampleInl.cauchy_program, SampleInl.cauchy_flat, SampleInl.twice_wf, trivial, SampleInl.separates SampleInl.cauchy_vars (by decide) _, rfl, hal, SampleInl.fresh _, hal',
    SampleInl.fresh _, by simp [SampleInl.t], fun _ => rfl, s2, r, s2', r', h.run, h'.run, ?_, ?_⟩
  · rw [h.adj 0 (by omega), SampleInl.cauchy_flat]
    have e1 : ∀ sd : ℕ → ℝ, sd 0 = 2 → SampleInl.density.grad (bindExpr SampleInl.cauchy 10 10 0 0 SampleInl.t).2.val sd 0 = -4 := fun sd hsd => by
      rw [SampleInl.density_grad _ (by simp [bindExpr, St.allocate, fillRange, SampleInl.t]) sd (by rw [hsd]; norm_num), hsd]
      norm_num
    simp only [List.map, List.cons_append, List.nil_append, backL, Expr.mkEq, Expr.back, List.isEmpty]
    rw [e1]
    all_goals
      norm_num [SampleInl.twice, Expr.mkBinary, Expr.grad, BOp.isComparison, BOp.bl, BOp.br, collapse, Expr.shape, Expr.view, View.null, Expr.binShape, Shape.ofDims, Shape.maxKind,
        SampleInl.sv, Shape.scl, Shape.isScl, addr, View.size, Shape.size, rng, bindExpr, St.allocate, fillRange, SampleInl.t]
  · rw [h'.adj 0 (by simp [SampleInl.t])]
    have e1 := SampleInl.density_grad SampleInl.t.val (by simp [SampleInl.t])
    have e2 : collapse SampleInl.density.shape (View.null (Expr.binShape SampleInl.density.shape SampleInl.density.shape)).shape
        (View.null (Expr.binShape SampleInl.density.shape SampleInl.density.shape)).size (fun _ => (1 : ℝ)) 0 = 1 := by
      simp [collapse, SampleInl.density, Expr.mkReduce, Expr.shape, Expr.view, View.null, Expr.binShape, Shape.ofDims, Shape.maxKind, Shape.scl, Shape.isScl]
    simp [Expr.mkBinary, Expr.grad, BOp.isComparison, BOp.bl, BOp.br, e1, e2]
    norm_num [SampleInl.t]

end FastAD
