import Verif.Spec.NoReset
import Verif.Proof.Loop
import Verif.Proof.Pullback

/-!
# Loops over data without resets
-/

open scoped Topology

namespace FastAD

variable [HasInf ℝ] [LinAlg ℝ]
set_option linter.unusedSectionVars false

/-- the adjoint of a placeholder assigned by the last statement grows by the seed -/
theorem prog_last_any {p : Expr ℝ} (hp : p.Program) {L1 : List (Expr ℝ)} {v : View} {e : Expr ℝ} {w : View}
    (hL : p.flat = L1 ++ [.eq v e w]) {m : ℕ → ℝ} {k : ℕ} (hk : k < v.size) (seed A : ℕ → ℝ) :
    backL p.flat m seed A (addr v.adj + k) = A (addr v.adj + k) + seed k := by
  obtain ⟨f1, -, -⟩ := flat_spec p hp.tree
  have ho := hp.order
  rw [hL] at f1 ho ⊢
  obtain ⟨-, -, ho3⟩ := List.pairwise_append.1 ho
  have hwf := (f1 (.eq v e w) (by simp)).1
  have hgr : ∀ sd, e.grad (execL L1 m) sd (addr v.adj + k) = 0 := fun sd =>
    grad_support _ e sd _ fun h => (hwf.2.2.2.2.2 k hk).2.2 (readsA_cells e _ h)
  rw [backL_prefix (fun x hx => (f1 x (by simp [hx])).1) (by simp) fun x hx => (ho3 x hx (.eq v e w) (by simp) v rfl k hk).2.2]
  simp only [backL, List.isEmpty_nil, if_true, Expr.back, hgr, add_zero]
  rw [if_pos (add_mem_rng hk), Nat.add_sub_cancel_left]

/-- the adjoint of a placeholder after a pass from any adjoints -/
theorem prog_sens_any [LawfulLinAlg] {p : Expr ℝ} (hp : p.Program) {π : ℕ → ℕ} (hl : ProgLeaves p π) {L1 L2 : List (Expr ℝ)} {v : View} {e : Expr ℝ}
    {w : View} (hL : p.flat = L1 ++ .eq v e w :: L2) (hne : L2 ≠ []) {m : ℕ → ℝ} {k : ℕ} (hk : k < v.size)
    (hreg : RegSeq L2 (fun t => Function.update (execL (L1 ++ [.eq v e w]) m) (addr v.val + k) t) (e.denote (execL L1 m) k))
    (seed A : ℕ → ℝ) :
    HasDerivAt (fun t => ∑ b ∈ p.adjCells, A b * execL L2 (Function.update (execL (L1 ++ [.eq v e w]) m) (addr v.val + k) t) (π b) +
        ∑ i ∈ Finset.range p.size, seed i * resultL L2 (Function.update (execL (L1 ++ [.eq v e w]) m) (addr v.val + k) t) i)
      (backL p.flat m seed A (addr v.adj + k)) (e.denote (execL L1 m) k) := by
  classical
  obtain ⟨f1, -, -⟩ := flat_spec p hp.tree
  have ho := hp.order
  rw [hL] at f1 ho
  obtain ⟨-, ho2, ho3⟩ := List.pairwise_append.1 ho
  obtain ⟨ho4, ho5⟩ := List.pairwise_cons.1 ho2
  obtain ⟨m2, hm2⟩ : ∃ m2, m2 = execL (L1 ++ [.eq v e w]) m := ⟨_, rfl⟩
  have hval : m2 (addr v.val + k) = e.denote (execL L1 m) k := by
    rw [hm2, execL_append]
    simp only [execL, Expr.exec]
    exact assign_add hk
  have hm3 : m2 = (Expr.eq v e w).exec (execL L1 m) := hm2.trans (execL_append _ _ _)
  have hmem : ∀ x ∈ L2, x ∈ L1 ++ .eq v e w :: L2 := fun x hx => by simp [hx]
  have hcell : ∀ x ∈ L2, ∀ c ∈ x.constCells, c ∈ p.constCells := by
    intro x hx c hc
    obtain ⟨cv, hcv, h⟩ := mem_constCells.1 hc
    exact mem_constCells.2 ⟨cv, (f1 x (hmem x hx)).2.2 cv hcv, h⟩
  have hvt : addr v.val + k ∈ p.targetCells := mem_targetCells.2 ⟨.eq v e w, by rw [hL]; simp, add_mem_rng hk⟩
  have hvp : v ∈ p.vars := (f1 (.eq v e w) (by simp)).2.1 v (by simp [Expr.vars])
  have hva : addr v.adj + k ∈ p.adjCells := mem_adjCells.2 ⟨v, hvp, add_mem_rng hk⟩
  have hπv : π (addr v.adj + k) = addr v.val + k := hl.paired v hvp k hk
  rw [← hm2] at hreg ⊢
  rw [← hval] at hreg ⊢
  obtain ⟨γ', D, h⟩ := pull_list L2 (ρ := fun t => Function.update m2 (addr v.val + k) t) (fun x hx => (f1 x (hmem x hx)).1)
    (hasFDerivAt_update m2 (addr v.val + k))
    (fun x hx c hcc => Filter.Eventually.of_forall fun t => by
      have : c ≠ addr v.val + k := fun h => hl.const c (hcell x hx c hcc) (h ▸ hvt)
      simp [this])
    (fun x hx c hcc y hy h => hl.const c (hcell x hx c hcc) (mem_targetCells.2 ⟨y, by rw [hL]; exact hmem y hy, h⟩))
    (fun x hx u hu => hl.paired u ((f1 x (hmem x hx)).2.1 u hu))
    (V := p.adjCells) (fun x hx a ha => by
      obtain ⟨u, hu, h⟩ := mem_adjCells.1 ha
      exact mem_adjCells.2 ⟨u, (f1 x (hmem x hx)).2.1 u hu, h⟩)
    hl.inj ho5 (fun x hx c hcc => by
      have : c ≠ addr v.val + k := by
        rintro rfl
        cases x with
        | eq u e' w' =>
          obtain ⟨j, hj, h⟩ := mem_rng_iff.1 hcc
          refine (ho4 _ hx u rfl j hj).1 ?_
          rw [← h]
          exact mem_valCells.2 ⟨v, by simp [Expr.vars], add_mem_rng hk⟩
        | _ => exact hcc.elim
      simp [this]) hreg
  have hsz : sizeR L2 = p.size := by
    rw [← sizeR_flat hp.tree hp.nonempty, hL]
    have hlast := List.getLast?_eq_some_getLast hne
    rw [sizeR_last _ hlast, sizeR_last (L := L1 ++ .eq v e w :: L2) _]
    rw [List.getLast?_append_of_ne_nil _ (by simp), List.getLast?_cons_of_ne_nil hne]
    exact hlast
  have h2 := h.pull seed A
  rw [hsz] at h h2
  have h4 : HasFDerivAt (fun t => ∑ b ∈ p.adjCells, A b * execL L2 (Function.update m2 (addr v.val + k) t) (π b) +
      ∑ i ∈ Finset.range p.size, seed i * resultL L2 (Function.update m2 (addr v.val + k) t) i)
      (∑ b ∈ p.adjCells, A b • γ' (π b) + ∑ i ∈ Finset.range p.size, seed i • D i) (m2 (addr v.val + k)) :=
    .add (HasFDerivAt.fun_sum fun b _ => (h.store (π b)).const_mul (A b)) (HasFDerivAt.fun_sum fun i hi => (h.deriv i (Finset.mem_range.1 hi)).const_mul (seed i))
  rw [← h2] at h4
  have h5 := h4.hasDerivAt
  rw [Function.update_eq_self] at h5
  convert h5 using 1
  rw [_root_.sum_apply, Finset.sum_eq_single (addr v.adj + k)]
  · rw [hπv, hL]
    have hpre : backL (L1 ++ .eq v e w :: L2) m seed A (addr v.adj + k) = backL (.eq v e w :: L2) (execL L1 m) seed A (addr v.adj + k) :=
      backL_prefix (fun x hx => (f1 x (by simp [hx])).1) (by simp) fun x hx => (ho3 x hx (.eq v e w) (by simp) v rfl k hk).2.2
    have hnil : L2.isEmpty = false := by cases L2 <;> simp_all
    have hwf := (f1 (.eq v e w) (by simp)).1
    have hgr : ∀ sd, e.grad (execL L1 m) sd (addr v.adj + k) = 0 := fun sd =>
      grad_support _ e sd _ fun h => (hwf.2.2.2.2.2 k hk).2.2 (readsA_cells e _ h)
    rw [hpre]
    simp only [backL, hnil, Bool.false_eq_true, if_false, Expr.back, hgr, add_zero, ite_self]
    rw [← hm3]
    simp [_root_.smul_apply]
  · intro b hb hneb
    have : π b ≠ addr v.val + k := fun h => hneb (hl.inj hb hva (h.trans hπv.symm))
    simp [this]
  · intro h; exact absurd hva h


theorem round_of [LawfulLinAlg] {p : Expr ℝ} (hp : p.Program) {π : ℕ → ℕ} (hl : ProgLeaves p π) {seed m A A' : ℕ → ℝ} (h : ∀ a ∈ p.adjCells, A' a = backL p.flat m seed A a) : RoundOf p π seed m A A' := by
  refine ⟨fun a ha hc hpl hreg => ?_, fun L1 v e w L2 hL k hk => ?_⟩
  · rw [h a ha]
    exact prog_pullback hp hl ha hc hpl hreg seed A
  · have hmem : v ∈ p.vars := ((flat_spec p hp.tree).1 (.eq v e w) (by rw [hL]; simp)).2.1 v (by simp [Expr.vars])
    rw [h _ (mem_adjCells.2 ⟨v, hmem, add_mem_rng hk⟩)]
    refine ⟨?_, fun hne hreg => prog_sens_any hp hl hL hne hk hreg seed A⟩
    rintro rfl
    exact prog_last_any hp hL hk seed A

theorem dataLoop_rounds [LawfulLinAlg] {p : Expr ℝ} {s : St ℝ} {qv qa : ℕ} {jv ja : ℕ → ℝ} (hp : p.Program) (hal : p.Alive s.vok s.aok) (hf : Fresh s p.bindSize qv qa) (hst : p.Stable) (hsz : 0 < p.size)
    (seed : ℕ → ℝ) (resets : List ℕ) (hres : ∀ a ∈ resets, s.aok a = true) (rows : List (List (ℕ × ℝ))) :
    ∀ {s1 : St ℝ} {m : ℕ → ℝ} (loss : ℝ), Later (bindExpr p qv qa jv ja s).2 s1 → (∀ row ∈ rows, ∀ w ∈ row, s.vok w.1 = true) →
      (∀ c, s.vok c = true → c ∉ p.placeCells → s1.val c = m c) →
      ∃ s', dataLoop (bindExpr p qv qa jv ja s).1 seed resets rows loss s1 = some (s', loss + total (fun m' => p.result m' 0) m rows) ∧
        ∀ π, ProgLeaves p π → RoundsOf p π seed s.vok resets (rowStores m rows) s1.adj s'.adj := by
  induction rows with
  | nil =>
    intro s1 m loss hl _ hag
    exact ⟨s1, by simp [dataLoop, total, rowStores], fun π _ => .done _⟩
  | cons row rows ih =>
    intro s1 m loss hl hrow hag
    have hvok : ∀ c, s.vok c = true → s1.vok c = true := fun c hc => hl.1 c (by simp [bindExpr, St.allocate, hc])
    have haok : ∀ c, s.aok c = true → s1.aok c = true := fun c hc => hl.2 c (by simp [bindExpr, St.allocate, hc])
    have h1 := store_spec (s := s1) row fun w hw => hvok _ (hrow row (by simp) w hw)
    have h2 := resetAdj_spec (s := { s1 with val := overlay s1.val row }) resets fun a ha => haok a (hres a ha)
    let sa : St ℝ := ⟨overlay s1.val row, fun a => if a ∈ resets then 0 else s1.adj a, s1.vok, s1.aok⟩
    have hag2 : ∀ c, s.vok c = true → c ∉ p.placeCells → sa.val c = overlay m row c := fun c hc hcp => overlay_congr (hag c hc hcp)
    have hfree : ∀ c ∈ (p.valCells ∪ p.constCells) \ p.placeCells, sa.val c = overlay m row c := by
      intro c hc
      obtain ⟨hc1, hc2⟩ := Finset.mem_sdiff.1 hc
      exact hag2 c ((Finset.mem_union.1 hc1).elim (valCells_alive hal c) (constCells_alive hal c)) hc2
    obtain ⟨s2, r, h⟩ := later_autodiff (s1 := sa) hp hal hf (jv := jv) (ja := ja) ⟨hl.1, hl.2⟩ seed
    have hread := read_one hsz (h.value hst)
    have hl2 : Later (bindExpr p qv qa jv ja s).2 s2 := ⟨fun a ha => by rw [h.vok]; exact hl.1 a ha, fun a ha => by rw [h.aok]; exact hl.2 a ha⟩
    have hag3 : ∀ c, s.vok c = true → c ∉ p.placeCells → s2.val c = overlay m row c := by
      intro c hc hcp
      rw [h.val c (fresh_block hf.1 hc), prog_restore hp hcp]
      exact hag2 c hc hcp
    obtain ⟨s', hrun, hok⟩ := ih (loss + p.result (overlay m row) 0) hl2 (fun r hr => hrow r (by simp [hr])) hag3
    refine ⟨s', ?_, fun π hπ => ?_⟩
    · have hrun0 : autodiff (bindExpr p qv qa jv ja s).1 seed ⟨overlay s1.val row, fun a => if a ∈ resets then 0 else s1.adj a, s1.vok, s1.aok⟩ = some (s2, r) := h.run
      simp only [dataLoop, h1, h2, hrun0, hread, Option.bind_eq_bind, Option.bind_some]
      have : trunc 1 (p.result sa.val) 0 = p.result (overlay m row) 0 := by
        rw [trunc_of_lt Nat.one_pos]
        exact result_congr hp hfree 0 hsz
      rw [this, hrun]
      simp [total, rowStores, add_assoc]
    · exact .round hag2 (round_of hp hπ fun a ha => h.adj a (fresh_block hf.2 (adjCells_alive hal a ha))) (hok π hπ)

end FastAD
