import Verif.Proof.Interleave
import Verif.Props.Program

/-!
# C51: several bound programs used in turn
-/

namespace FastAD

section
variable {α : Type} [Zero α] [One α] [Add α] [Sub α] [Neg α] [Mul α] [Div α] [NatCast α] [IntCast α]
variable [Fn α] [HasInf α] [LinAlg α]
variable {ι : Type} [DecidableEq ι] {p : ι → Expr α} {b : ι → Pack} {UV UA : Set ℕ} {S : St α}

/-- **C51.** Let programs be bound to buffers outside the user's cells `UV`, `UA`, such that they do not get into each other's way.  Then any sequence of calls of `evaluate`, `evaluate_adj`
and `autodiff` on them, in any order, is defined, and every program returns exactly what it returns when the calls on it are made alone; the cells it mentions and its buffers end up with
exactly the same contents.  All other memory is unchanged. -/
theorem C51_independent (hp : ∀ i, (p i).WFTree ∧ (p i).flat ≠ []) (hw : ∀ i, (p i).Within UV UA S.vok S.aok) (hr : ∀ i, (p i).Room (b i) UV UA S.vok S.aok)
    (hsep : Separate p b) (cs : List (ι × Act α)) :
    ∃ S' R, runActs (fun i => ((p i).bind (b i)).1) cs S = some (S', R) ∧
      (∀ i, ∃ Si, runActs (fun i => ((p i).bind (b i)).1) (only i cs) S = some (Si, only i R) ∧
        (∀ a ∈ (p i).valCells ∪ (p i).constCells, S'.val a = Si.val a) ∧ (∀ k < (p i).bindSize.val, S'.val (addr (b i).val + k) = Si.val (addr (b i).val + k)) ∧
        (∀ a ∈ (p i).adjCells, S'.adj a = Si.adj a) ∧ ∀ k < (p i).bindSize.adj, S'.adj (addr (b i).adj + k) = Si.adj (addr (b i).adj + k)) ∧
      (∀ a, (∀ i, a ∉ (p i).targetCells ∧ ∀ k < (p i).bindSize.val, a ≠ addr (b i).val + k) → S'.val a = S.val a) ∧
      ∀ a, (∀ i, a ∉ (p i).adjCells ∧ ∀ k < (p i).bindSize.adj, a ≠ addr (b i).adj + k) → S'.adj a = S.adj a := by
  have hrun : ∀ i (s : St α), s.vok = S.vok → s.aok = S.aok → ∀ c : Act α,
      RunsIn (rng (b i).val (p i).bindSize.val ∪ (p i).seen) (rng (b i).val (p i).bindSize.val ∪ tgts (p i).flat) (rng (b i).adj (p i).bindSize.adj ∪ ↑(p i).adjCells) Any s
        (c.run ((p i).bind (b i)).1) := by
    intro i s hv ha c
    have h := bind_eval (hp i).1 (hp i).2 (hw i) (hr i)
    rw [← hv, ← ha] at h
    exact h.act (room_block (hw i) (hr i)) ((hp i).1.shapeOk (hp i).2) c
  have hV : ∀ i j, i ≠ j → ∀ a ∈ rng (b i).val (p i).bindSize.val ∪ tgts (p i).flat, a ∉ rng (b j).val (p j).bindSize.val ∪ (p j).seen := by
    rintro i j hij a (ha | ha) (ha' | ha')
    · obtain ⟨k, hk, rfl⟩ := mem_rng_iff.1 ha
      obtain ⟨l, hl, h⟩ := mem_rng_iff.1 ha'
      exact hsep.bufV i j hij k hk l hl h
    · obtain ⟨k, hk, rfl⟩ := mem_rng_iff.1 ha
      exact (hr i).offV k hk ((hw j).val _ (Finset.mem_coe.1 ha'))
    · obtain ⟨k, hk, rfl⟩ := mem_rng_iff.1 ha'
      exact (hr j).offV k hk ((hw i).val _ (Finset.mem_coe.1 (tgts_seen (hp i).1 ha)))
    · exact hsep.assigned i j hij a (tgts_target ha) (Finset.mem_coe.1 ha')
  have hA : ∀ i j, i ≠ j → ∀ a ∈ rng (b i).adj (p i).bindSize.adj ∪ (↑(p i).adjCells : Set ℕ), a ∉ rng (b j).adj (p j).bindSize.adj ∪ (↑(p j).adjCells : Set ℕ) := by
    rintro i j hij a (ha | ha) (ha' | ha')
    · obtain ⟨k, hk, rfl⟩ := mem_rng_iff.1 ha
      obtain ⟨l, hl, h⟩ := mem_rng_iff.1 ha'
      exact hsep.bufA i j hij k hk l hl h
    · obtain ⟨k, hk, rfl⟩ := mem_rng_iff.1 ha
      exact (hr i).offA k hk ((hw j).adj _ (Finset.mem_coe.1 ha'))
    · obtain ⟨k, hk, rfl⟩ := mem_rng_iff.1 ha'
      exact (hr j).offA k hk ((hw i).adj _ (Finset.mem_coe.1 ha))
    · exact hsep.adjoint i j hij a (Finset.mem_coe.1 ha) (Finset.mem_coe.1 ha')
  obtain ⟨S', R, h1, -, -, h2, h3, h4⟩ := acts_runs hrun hV hA cs S (fun _ => S) rfl rfl fun i => Agree.refl S
  refine ⟨S', R, h1, fun i => ?_, fun a ha => h2 a fun i => ?_, fun a ha => h3 a fun i => ?_⟩
  · obtain ⟨t, k1, k2⟩ := h4 i
    exact ⟨t, k1, fun a ha => k2.val a (Or.inr (Finset.mem_coe.2 ha)), fun k hk => k2.val _ (Or.inl (add_mem_rng hk)),
      fun a ha => k2.adj a (Or.inr (Finset.mem_coe.2 ha)), fun k hk => k2.adj _ (Or.inl (add_mem_rng hk))⟩
  · rintro (h | h)
    · obtain ⟨k, hk, rfl⟩ := mem_rng_iff.1 h
      exact (ha i).2 k hk rfl
    · exact (ha i).1 (tgts_target h)
  · rintro (h | h)
    · obtain ⟨k, hk, rfl⟩ := mem_rng_iff.1 h
      exact (ha i).2 k hk rfl
    · exact (ha i).1 (Finset.mem_coe.1 h)

/-- **C51, the order between programs is irrelevant.** Two sequences of calls with the same calls in the same order on every single program end with the same memory, and every program returned
the same values. -/
theorem C51_any_interleaving (hp : ∀ i, (p i).WFTree ∧ (p i).flat ≠ []) (hw : ∀ i, (p i).Within UV UA S.vok S.aok)
    (hr : ∀ i, (p i).Room (b i) UV UA S.vok S.aok) (hsep : Separate p b) (cs cs' : List (ι × Act α)) (h : ∀ i, only i cs = only i cs') :
    ∃ S' R S'' R', runActs (fun i => ((p i).bind (b i)).1) cs S = some (S', R) ∧ runActs (fun i => ((p i).bind (b i)).1) cs' S = some (S'', R') ∧
      (∀ i, only i R = only i R') ∧ S'.val = S''.val ∧ S'.adj = S''.adj := by
  obtain ⟨S', R, h1, h2, h3, h4⟩ := C51_independent hp hw hr hsep cs
  obtain ⟨S'', R', k1, k2, k3, k4⟩ := C51_independent hp hw hr hsep cs'
  refine ⟨S', R, S'', R', h1, k1, fun i => ?_, funext fun a => ?_, funext fun a => ?_⟩
  · obtain ⟨t, e1, -⟩ := h2 i
    obtain ⟨t', e2, -⟩ := k2 i
    rw [h i, e2] at e1
    simp only [Option.some.injEq, Prod.mk.injEq] at e1
    exact e1.2.symm
  · by_cases hc : ∀ i, a ∉ (p i).targetCells ∧ ∀ k < (p i).bindSize.val, a ≠ addr (b i).val + k
    · rw [h3 a hc, k3 a hc]
    · push Not at hc
      obtain ⟨i, hc⟩ := hc
      obtain ⟨t, e1, f1, f2, -⟩ := h2 i
      obtain ⟨t', e2, g1, g2, -⟩ := k2 i
      rw [h i, e2] at e1
      simp only [Option.some.injEq, Prod.mk.injEq] at e1
      by_cases ha : a ∈ (p i).targetCells
      · have hv : a ∈ (p i).valCells ∪ (p i).constCells := target_seen (hp i).1 ha
        rw [f1 a hv, g1 a hv, e1.1]
      · obtain ⟨k, hk, rfl⟩ := hc ha
        rw [f2 k hk, g2 k hk, e1.1]
  · by_cases hc : ∀ i, a ∉ (p i).adjCells ∧ ∀ k < (p i).bindSize.adj, a ≠ addr (b i).adj + k
    · rw [h4 a hc, k4 a hc]
    · push Not at hc
      obtain ⟨i, hc⟩ := hc
      obtain ⟨t, e1, -, -, f1, f2⟩ := h2 i
      obtain ⟨t', e2, -, -, g1, g2⟩ := k2 i
      rw [h i, e2] at e1
      simp only [Option.some.injEq, Prod.mk.injEq] at e1
      by_cases ha : a ∈ (p i).adjCells
      · rw [f1 a ha, g1 a ha, e1.1]
      · obtain ⟨k, hk, rfl⟩ := hc ha
        rw [f2 k hk, g2 k hk, e1.1]

end

/-! ### Samples -/

namespace SampleTwo

/-- the shared parameter, with a separate adjoint for every worker -/
def x (i : Bool) : View := ⟨.scl, some 0, some (if i then 2 else 0)⟩
/-- a placeholder for every worker -/
def y (i : Bool) : View := ⟨.scl, some (if i then 3 else 1), some (if i then 3 else 1)⟩
/-- `y = x * x, y * x` -/
def p {α : Type} (i : Bool) : Expr α := .mkGlue (.mkEq (y i) (.mkBinary .mul (.var (x i)) (.var (x i)))) (.mkBinary .mul (.var (y i)) (.var (x i)))
/-- a buffer for every worker -/
def b (i : Bool) : Pack := ⟨some (if i then 20 else 10), some (if i then 20 else 10)⟩
/-- the cells of the variables -/
def U : Set ℕ := {a | a < 4}
/-- a memory in which all cells are allocated -/
noncomputable def S : St ℝ := ⟨fun a => (a : ℝ) + 1, fun _ => 0, fun _ => true, fun _ => true⟩

theorem p_wf {α : Type} (i : Bool) : (p i : Expr α).WFTree := by
  cases i <;> refine ⟨?_, ?_, by simp [Expr.flat, Expr.mkBinary], rfl⟩
  all_goals first
    | (refine ⟨⟨?_, ?_, ?_, ?_, ?_⟩, ?_, ?_, ?_, ?_, ?_⟩ <;>
        simp [Expr.WF, Expr.mkBinary, Expr.mkEq, Expr.shape, Expr.view, View.null, Expr.binShape, Shape.ofDims, Shape.maxKind, x, y, Shape.scl, Shape.Ok, addr,
          binDimsOk, sameDims, Shape.isScl, Expr.isIf, Expr.Assignable, BOp.isComparison, View.size, Shape.size, Expr.valCells, Expr.constCells, Expr.adjCells, Expr.vars, Expr.cviews, cells]; done)
    | (refine ⟨⟨?_, ?_, ?_, ?_, ?_⟩, ?_, ?_⟩ <;>
        simp [Expr.WF, Expr.mkBinary, Expr.shape, Expr.view, View.null, Expr.binShape, Shape.ofDims, Shape.maxKind, x, y, Shape.scl, Shape.Ok,
          binDimsOk, Shape.isScl, Expr.isIf, BOp.isComparison, Expr.NotConst])

theorem p_ne {α : Type} (i : Bool) : (p i : Expr α).flat ≠ [] := by simp [p, Expr.mkGlue, Expr.mkEq, Expr.flat]

theorem within (i : Bool) : (p i : Expr ℝ).Within U U S.vok S.aok := by
  refine ⟨⟨fun u hu => ?_, fun c hc => ?_⟩, ?_, ?_⟩
  · simp only [p, Expr.mkGlue, Expr.mkEq, Expr.mkBinary, Expr.vars, List.mem_append, List.mem_cons, List.not_mem_nil, or_false] at hu
    rcases hu with (rfl | rfl | rfl) | rfl | rfl <;> constructor <;> intro k hk <;> rfl
  · simp [p, Expr.mkGlue, Expr.mkEq, Expr.mkBinary, Expr.cviews] at hc
  · cases i
    · have : (p false : Expr ℝ).valCells ∪ (p false : Expr ℝ).constCells = {0, 1} := by decide
      rw [this]; intro a ha; fin_cases ha <;> simp [U]
    · have : (p true : Expr ℝ).valCells ∪ (p true : Expr ℝ).constCells = {0, 3} := by decide
      rw [this]; intro a ha; fin_cases ha <;> simp [U]
  · cases i
    · have : (p false : Expr ℝ).adjCells = {0, 1} := by decide
      rw [this]; intro a ha; fin_cases ha <;> simp [U]
    · have : (p true : Expr ℝ).adjCells = {2, 3} := by decide
      rw [this]; intro a ha; fin_cases ha <;> simp [U]

theorem room (i : Bool) : (p i : Expr ℝ).Room (b i) U U S.vok S.aok := by
  refine ⟨fun _ _ => rfl, fun _ _ => rfl, fun k _ h => ?_, fun k _ h => ?_⟩ <;> cases i <;> simp [U, addr, b] at h <;> omega

theorem separate : Separate (p : Bool → Expr ℝ) b := by
  have h1 : ∀ i, (p i : Expr ℝ).bindSize.val = 1 := fun i => by cases i <;> rfl
  have h2 : ∀ i, (p i : Expr ℝ).bindSize.adj = 1 := fun i => by cases i <;> rfl
  constructor
  · intro i j hij k hk l hl
    rw [h1] at hk hl
    cases i <;> cases j <;> simp [b, addr] at hij ⊢ <;> omega
  · intro i j hij k hk l hl
    rw [h2] at hk hl
    cases i <;> cases j <;> simp [b, addr] at hij ⊢ <;> omega
  · intro i j hij
    cases i <;> cases j <;> first | (exact absurd rfl hij) | decide
  · intro i j hij
    cases i <;> cases j <;> first | (exact absurd rfl hij) | decide

end SampleTwo

section
variable [HasInf ℝ] [LinAlg ℝ]

/-- Two workers compute `y = x * x, y * x` and its derivative for the same `x = 1`, each with a placeholder and an adjoint of its own: however their calls alternate, the outcome
is the same. -/
example (g h : ℕ → ℝ) : ∃ S' R S'' R',
    runActs (fun i => ((SampleTwo.p i).bind (SampleTwo.b i)).1) [(false, .evaluate), (true, .evaluate), (false, .evaluateAdj g), (true, .autodiff h)] SampleTwo.S = some (S', R) ∧
    runActs (fun i => ((SampleTwo.p i).bind (SampleTwo.b i)).1) [(true, .evaluate), (true, .autodiff h), (false, .evaluate), (false, .evaluateAdj g)] SampleTwo.S = some (S'', R') ∧
    (∀ i, only i R = only i R') ∧ S'.val = S''.val ∧ S'.adj = S''.adj :=
  C51_any_interleaving (fun i => ⟨SampleTwo.p_wf i, SampleTwo.p_ne i⟩) SampleTwo.within SampleTwo.room SampleTwo.separate _ _
    (fun i => by cases i <;> simp [only])

/-- two programs that assign the same placeholder: `y = x * x, y * x` and `y = z * z, y * z` -/
def SampleTwo.shared (i : Bool) : Expr ℝ :=
  let x : View := ⟨.scl, some (if i then 2 else 0), some (if i then 2 else 0)⟩
  .mkGlue (.mkEq (SampleTwo.y false) (.mkBinary .mul (.var x) (.var x))) (.mkBinary .mul (.var (SampleTwo.y false)) (.var x))

/-- **C51, separate placeholders are needed.** The programs `y = x * x, y * x` and `y = z * z, y * z` (x = 1, z = 3) are bound to separate buffers, but share the placeholder `y`.  If the second one is
evaluated between `evaluate` and `evaluate_adj` of the first one, then the adjoint of `x` becomes 11, otherwise 3. -/
theorem C51_false_for_shared_placeholder :
    let b : Bool → Expr ℝ := fun i => ((SampleTwo.shared i).bind (SampleTwo.b i)).1
    (∃ S' R, runActs b [(false, .evaluate), (true, .evaluate), (false, .evaluateAdj fun _ => 1)] SampleTwo.S = some (S', R) ∧ S'.adj 0 = 11) ∧
    ∃ S' R, runActs b [(false, .evaluate), (false, .evaluateAdj fun _ => 1)] SampleTwo.S = some (S', R) ∧ S'.adj 0 = 3 := by
  refine ⟨⟨_, _, rfl, ?_⟩, _, _, rfl, ?_⟩
  · show (0 : ℝ) + 1 * ((((2 : ℕ) : ℝ) + 1) * (((2 : ℕ) : ℝ) + 1)) + (0 + 1 * (((0 : ℕ) : ℝ) + 1) + 0) * (((0 : ℕ) : ℝ) + 1) + (0 + 1 * (((0 : ℕ) : ℝ) + 1) + 0) * (((0 : ℕ) : ℝ) + 1) = 11
    norm_num
  · show (0 : ℝ) + 1 * ((((0 : ℕ) : ℝ) + 1) * (((0 : ℕ) : ℝ) + 1)) + (0 + 1 * (((0 : ℕ) : ℝ) + 1) + 0) * (((0 : ℕ) : ℝ) + 1) + (0 + 1 * (((0 : ℕ) : ℝ) + 1) + 0) * (((0 : ℕ) : ℝ) + 1) = 3
    norm_num

end

end FastAD
