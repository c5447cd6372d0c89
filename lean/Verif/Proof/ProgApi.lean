import Verif.Proof.ProgCalc

/-!
# Bound programs as seen by the user
-/

namespace FastAD

variable [HasInf ℝ] [LinAlg ℝ]
set_option linter.unusedSectionVars false

/-- Outcome of `autodiff` of a bound program in any later state of memory, as seen from the memory before the binding. -/
structure LaterAuto (p : Expr ℝ) (b : Expr ℝ) (qv qa : ℕ) (s s1 s2 : St ℝ) (seed : ℕ → ℝ) (r : Ref ℝ) : Prop where
  run : autodiff b seed s1 = some (s2, r)
  vok : s2.vok = s1.vok
  aok : s2.aok = s1.aok
  val : ∀ a, ¬ (qv ≤ a ∧ a < qv + p.bindSize.val) → s2.val a = restL p.flat s1.val a
  adj : ∀ a, ¬ (qa ≤ a ∧ a < qa + p.bindSize.adj) → s2.adj a = backL p.flat s1.val seed s1.adj a
  value : p.Stable → r.read s2 p.size = some (trunc p.size (p.result s1.val))
  array : p.shape.isScl = false → r = .ptr b.view.val

section
variable {p : Expr ℝ} {s s1 : St ℝ} {qv qa : ℕ} {jv ja : ℕ → ℝ}

theorem later_autodiff (hp : p.Program) (hal : p.Alive s.vok s.aok) (hf : Fresh s p.bindSize qv qa)
    (hl : Later (bindExpr p qv qa jv ja s).2 s1) (seed : ℕ → ℝ) :
    ∃ s2 r, LaterAuto p (bindExpr p qv qa jv ja s).1 qv qa s s1 s2 seed r := by
  obtain ⟨s2, r, h⟩ := (later_prog hp hal hf hl).autodiff (m := s1.val) (fun _ _ => rfl) hp.shapeOk seed hp.order
  exact ⟨s2, r, h.run, h.vok, h.aok, fun a ha => h.val a (by simpa [blockV, mem_rng, addr_some] using ha),
    fun a ha => h.adj a (by simpa [blockA, mem_rng, addr_some] using ha), h.value, h.array⟩

theorem later_evaluate (hp : p.Program) (hal : p.Alive s.vok s.aok) (hf : Fresh s p.bindSize qv qa)
    (hl : Later (bindExpr p qv qa jv ja s).2 s1) :
    ∃ s2 r, ProgEval p (bindExpr p qv qa jv ja s).1 (blockV qv p.bindSize) s1.val s1 s2 r :=
  (later_prog hp hal hf hl).evaluate (fun _ _ => rfl) hp.shapeOk

end

theorem prog_exec_pure {p : Expr ℝ} (hp : p.Program) : ∀ x ∈ p.flat, x.isStmt = false → ∀ m, x.exec m = m :=
  fun x hx hs m => (WFStmt_pure hs ((flat_spec p hp.tree).1 x hx).1).1.exec m

/-- cells that are not placeholders get back their values -/
theorem prog_restore {p : Expr ℝ} (hp : p.Program) {m : ℕ → ℝ} {a : ℕ} (ha : a ∉ p.placeCells) : restL p.flat m a = m a :=
  restL_off (prog_exec_pure hp) fun x hx h => ha (mem_placeCells.2 ⟨x, hx, h⟩)

/-- placeholders keep the values assigned to them -/
theorem prog_placeholder {p : Expr ℝ} (hp : p.Program) {L1 L2 : List (Expr ℝ)} {v : View} {e : Expr ℝ} {w : View}
    (hL : p.flat = L1 ++ .eq v e w :: L2) {m : ℕ → ℝ} {k : ℕ} (hk : k < v.size) :
    restL p.flat m (addr v.val + k) = e.denote (execL L1 m) k := by
  have ho := hp.order
  rw [hL] at ho ⊢
  obtain ⟨-, ho2, ho3⟩ := List.pairwise_append.1 ho
  obtain ⟨ho4, ho5⟩ := List.pairwise_cons.1 ho2
  rw [restL_prefix fun x hx h => (ho3 x hx (.eq v e w) (by simp) v rfl k hk).1 (targ_cells h)]
  have h2 : ∀ m', restL L2 m' (addr v.val + k) = m' (addr v.val + k) := by
    intro m'
    refine restL_off (fun x hx => prog_exec_pure hp x (by rw [hL]; simp [hx])) fun x hx h => ?_
    cases x with
    | eq u e' w' =>
      obtain ⟨j, hj, h⟩ := mem_rng_iff.1 h
      refine (ho4 _ hx u rfl j hj).1 ?_
      rw [← h]
      exact mem_valCells.2 ⟨v, by simp [Expr.vars], add_mem_rng hk⟩
    | _ => exact h.elim
  show restL L2 ((Expr.eq v e w).exec (execL L1 m)) _ = _
  rw [h2]
  simp only [Expr.exec]
  exact assign_add hk

/-- a variable is assigned only if it is mentioned -/
theorem targetCells_sub {p : Expr ℝ} (hp : p.WFTree) {a : ℕ} (h : a ∈ p.targetCells) : a ∈ p.valCells := by
  obtain ⟨x, hx, h⟩ := mem_targetCells.1 h
  obtain ⟨v, hv, h⟩ := mem_valCells.1 (targ_cells h)
  exact mem_valCells.2 ⟨v, ((flat_spec p hp).1 x hx).2.1 v hv, h⟩

theorem execL_off {L : List (Expr ℝ)} (hwf : ∀ x ∈ L, x.WFStmt) {m : ℕ → ℝ} {a : ℕ} (ha : ∀ x ∈ L, a ∉ x.targ) : execL L m a = m a := by
  induction L generalizing m with
  | nil => rfl
  | cons x xs ih =>
    simp only [execL]
    rw [ih (fun y hy => hwf y (by simp [hy])) fun y hy => ha y (by simp [hy]), x.exec_off (hwf x (by simp)) (ha x (by simp))]

theorem backL_off {L : List (Expr ℝ)} (hwf : ∀ x ∈ L, x.WFStmt) {m seed A : ℕ → ℝ} {a : ℕ}
    (ha : ∀ x ∈ L, a ∉ x.adjCells) : backL L m seed A a = A a := by
  induction L generalizing m with
  | nil => rfl
  | cons x xs ih =>
    simp only [backL]
    rw [x.back_off (hwf x (by simp)) (ha x (by simp))]
    exact ih (fun y hy => hwf y (by simp [hy])) fun y hy => ha y (by simp [hy])

/-- all storage is accessible if the accessible memory is exactly that of the variables and constant views -/
theorem alive_of_exact {e : Expr ℝ} {s : St ℝ} (hv : ∀ a, s.vok a = true ↔ a ∈ e.valCells ∪ e.constCells) (ha : ∀ a, s.aok a = true ↔ a ∈ e.adjCells)
    (hnull : (∀ w ∈ e.vars, w.size ≠ 0 → w.val ≠ none ∧ w.adj ≠ none) ∧ ∀ c ∈ e.cviews, c.1.size ≠ 0 → c.2 ≠ none) : e.Alive s.vok s.aok := by
  constructor
  · intro w hw
    have hn := hnull.1 w hw
    constructor
    · cases hp : w.val with
      | none => by_contra hc; exact (hn hc).1 hp
      | some q =>
        intro k hk
        rw [hv]
        exact Finset.mem_union.2 (Or.inl (mem_valCells.2 ⟨w, hw, by rw [hp]; exact add_mem_rng hk⟩))
    · cases hp : w.adj with
      | none => by_contra hc; exact (hn hc).2 hp
      | some q =>
        intro k hk
        rw [ha]
        exact mem_adjCells.2 ⟨w, hw, by rw [hp]; exact add_mem_rng hk⟩
  · intro c hc
    have hn := hnull.2 c hc
    cases hp : c.2 with
    | none => by_contra hc; exact hn hc hp
    | some q =>
      intro k hk
      rw [hv]
      exact Finset.mem_union.2 (Or.inr (mem_constCells.2 ⟨c, hc, by rw [hp]; exact add_mem_rng hk⟩))

/-- the adjoint of a placeholder assigned by the last statement is the seed -/
theorem prog_last {p : Expr ℝ} (hp : p.Program) {L1 : List (Expr ℝ)} {v : View} {e : Expr ℝ} {w : View}
    (hL : p.flat = L1 ++ [.eq v e w]) {m : ℕ → ℝ} {k : ℕ} (hk : k < v.size) (seed A : ℕ → ℝ) (hA : A (addr v.adj + k) = 0) :
    backL p.flat m seed A (addr v.adj + k) = seed k := by
  obtain ⟨f1, -, -⟩ := flat_spec p hp.tree
  have ho := hp.order
  rw [hL] at f1 ho ⊢
  obtain ⟨-, -, ho3⟩ := List.pairwise_append.1 ho
  have hwf := (f1 (.eq v e w) (by simp)).1
  have hgr : ∀ sd, e.grad (execL L1 m) sd (addr v.adj + k) = 0 := fun sd =>
    grad_support _ e sd _ fun h => (hwf.2.2.2.2.2 k hk).2.2 (readsA_cells e _ h)
  rw [backL_prefix (fun x hx => (f1 x (by simp [hx])).1) (by simp) fun x hx => (ho3 x hx (.eq v e w) (by simp) v rfl k hk).2.2]
  simp only [backL, List.isEmpty_nil, if_true, Expr.back, hgr, add_zero, hA, zero_add]
  rw [if_pos (add_mem_rng hk), Nat.add_sub_cancel_left]

/-- the adjoint of a placeholder is the sensitivity of the rest of the program -/
theorem prog_sensitivity [LawfulLinAlg] {p : Expr ℝ} (hp : p.Program) {π : ℕ → ℕ} (hl : ProgLeaves p π) {L1 L2 : List (Expr ℝ)} {v : View} {e : Expr ℝ}
    {w : View} (hL : p.flat = L1 ++ .eq v e w :: L2) (hne : L2 ≠ []) {m : ℕ → ℝ} {k : ℕ} (hk : k < v.size)
    (hreg : RegSeq L2 (fun t => Function.update (execL (L1 ++ [.eq v e w]) m) (addr v.val + k) t) (e.denote (execL L1 m) k))
    (seed A : ℕ → ℝ) (hA : ∀ a ∈ p.targetAdj, A a = 0) :
    HasDerivAt (fun t => ∑ i ∈ Finset.range p.size, seed i * resultL L2 (Function.update (execL (L1 ++ [.eq v e w]) m) (addr v.val + k) t) i)
      (backL p.flat m seed A (addr v.adj + k)) (e.denote (execL L1 m) k) := by
  classical
  obtain ⟨f1, -, -⟩ := flat_spec p hp.tree
  have ho := hp.order
  rw [hL] at f1 ho
  obtain ⟨-, ho2, ho3⟩ := List.pairwise_append.1 ho
  obtain ⟨ho4, ho5⟩ := List.pairwise_cons.1 ho2
  obtain ⟨m2, hm2⟩ : ∃ m2, m2 = execL (L1 ++ [.eq v e w]) m := ⟨_, rfl⟩
  have hval : m2 (addr v.val + k) = e.denote (execL L1 m) k := by
    rw [hm2, execL_append]
    simp only [execL, Expr.exec]
    exact assign_add hk
  have hm3 : m2 = (Expr.eq v e w).exec (execL L1 m) := hm2.trans (execL_append _ _ _)
  have hmem : ∀ x ∈ L2, x ∈ L1 ++ .eq v e w :: L2 := fun x hx => by simp [hx]
  have hcell : ∀ x ∈ L2, ∀ c ∈ x.constCells, c ∈ p.constCells := by
    intro x hx c hc
    obtain ⟨cv, hcv, h⟩ := mem_constCells.1 hc
    exact mem_constCells.2 ⟨cv, (f1 x (hmem x hx)).2.2 cv hcv, h⟩
  have hvt : addr v.val + k ∈ p.targetCells := mem_targetCells.2 ⟨.eq v e w, by rw [hL]; simp, add_mem_rng hk⟩
  have hvp : v ∈ p.vars := (f1 (.eq v e w) (by simp)).2.1 v (by simp [Expr.vars])
  have hva : addr v.adj + k ∈ p.adjCells := mem_adjCells.2 ⟨v, hvp, add_mem_rng hk⟩
  have hπv : π (addr v.adj + k) = addr v.val + k := hl.paired v hvp k hk
  rw [← hm2] at hreg ⊢
  rw [← hval] at hreg ⊢
  obtain ⟨D, h1, h2⟩ := pull_zero (L := L2) (ρ := fun t => Function.update m2 (addr v.val + k) t) (fun x hx => (f1 x (hmem x hx)).1)
    (hasFDerivAt_update m2 (addr v.val + k))
    (fun x hx c hcc => Filter.Eventually.of_forall fun t => by
      have : c ≠ addr v.val + k := fun h => hl.const c (hcell x hx c hcc) (h ▸ hvt)
      simp [this])
    (fun x hx c hcc y hy h => hl.const c (hcell x hx c hcc) (mem_targetCells.2 ⟨y, by rw [hL]; exact hmem y hy, h⟩))
    (fun x hx u hu => hl.paired u ((f1 x (hmem x hx)).2.1 u hu))
    (V := p.adjCells) (fun x hx a ha => by
      obtain ⟨u, hu, h⟩ := mem_adjCells.1 ha
      exact mem_adjCells.2 ⟨u, (f1 x (hmem x hx)).2.1 u hu, h⟩)
    hl.inj ho5 (fun x hx c hcc => by
      have : c ≠ addr v.val + k := by
        rintro rfl
        cases x with
        | eq u e' w' =>
          obtain ⟨j, hj, h⟩ := mem_rng_iff.1 hcc
          refine (ho4 _ hx u rfl j hj).1 ?_
          rw [← h]
          exact mem_valCells.2 ⟨v, by simp [Expr.vars], add_mem_rng hk⟩
        | _ => exact hcc.elim
      simp [this]) hreg
  have hsz : sizeR L2 = p.size := by
    rw [← sizeR_flat hp.tree hp.nonempty, hL]
    have hlast := List.getLast?_eq_some_getLast hne
    rw [sizeR_last _ hlast, sizeR_last (L := L1 ++ .eq v e w :: L2) _]
    rw [List.getLast?_append_of_ne_nil _ (by simp), List.getLast?_cons_of_ne_nil hne]
    exact hlast
  rw [hsz] at h1 h2
  have h4 : HasFDerivAt (fun t => ∑ i ∈ Finset.range p.size, seed i * resultL L2 (Function.update m2 (addr v.val + k) t) i)
      (∑ i ∈ Finset.range p.size, seed i • D i) (m2 (addr v.val + k)) := by
    refine HasFDerivAt.fun_sum fun i hi => ?_
    exact (h1 i (Finset.mem_range.1 hi)).const_mul (seed i)
  rw [← h2 seed A fun x hx u hu a ha => hA a (mem_targetAdj.2 ⟨x, by rw [hL]; exact hmem x hx, u, hu, ha⟩)] at h4
  have h5 := h4.hasDerivAt
  rw [Function.update_eq_self] at h5
  convert h5 using 1
  rw [_root_.sum_apply, Finset.sum_eq_single (addr v.adj + k)]
  · have hA0 : A (addr v.adj + k) = 0 := hA _ (mem_targetAdj.2 ⟨.eq v e w, by rw [hL]; simp, v, rfl, add_mem_rng hk⟩)
    rw [hπv, hL]
    have hpre : backL (L1 ++ .eq v e w :: L2) m seed A (addr v.adj + k) = backL (.eq v e w :: L2) (execL L1 m) seed A (addr v.adj + k) :=
      backL_prefix (fun x hx => (f1 x (by simp [hx])).1) (by simp) fun x hx => (ho3 x hx (.eq v e w) (by simp) v rfl k hk).2.2
    have hnil : L2.isEmpty = false := by cases L2 <;> simp_all
    have hwf := (f1 (.eq v e w) (by simp)).1
    have hgr : ∀ sd, e.grad (execL L1 m) sd (addr v.adj + k) = 0 := fun sd =>
      grad_support _ e sd _ fun h => (hwf.2.2.2.2.2 k hk).2.2 (readsA_cells e _ h)
    rw [hpre]
    simp only [backL, hnil, Bool.false_eq_true, if_false, Expr.back, hgr, add_zero, ite_self]
    rw [← hm3]
    simp [_root_.smul_apply, hA0]
  · intro b hb hneb
    have : π b ≠ addr v.val + k := fun h => hneb (hl.inj hb hva (h.trans hπv.symm))
    simp [this]
  · intro h; exact absurd hva h

end FastAD
