import Verif.Model.Api
import Verif.Proof.Beval
import Verif.Proof.Leaves

/-!
# Bound pure expressions: everything the property theorems need
-/

open scoped Topology

namespace FastAD

variable [HasInf ℝ] [LinAlg ℝ]
set_option linter.unusedSectionVars false

/-- the cells of the two cache blocks -/
def blockV (qv : ℕ) (n : SizePack) : Set ℕ := rng (some qv) n.val
def blockA (qa : ℕ) (n : SizePack) : Set ℕ := rng (some qa) n.adj

omit [HasInf ℝ] [LinAlg ℝ] in
theorem rng_vecData_sub (q n : ℕ) : rng (vecData q n) n ⊆ rng (some q) n := by
  unfold vecData
  split
  · rename_i h; subst h; intro a ha; simp [mem_rng] at ha; omega
  · exact subset_rfl

omit [HasInf ℝ] [LinAlg ℝ] in
theorem accessible_vecData {ok : ℕ → Bool} {q n : ℕ} (h : ∀ k < n, ok (q + k) = true) :
    accessible ok (vecData q n) n := by
  unfold vecData
  split
  · assumption
  · exact h

omit [HasInf ℝ] [LinAlg ℝ] in
theorem accessible.mono {ok ok' : ℕ → Bool} {p : Option ℕ} {n : ℕ} (h : accessible ok p n)
    (hm : ∀ a, ok a = true → ok' a = true) : accessible ok' p n := by
  cases p with
  | none => exact h
  | some q => exact fun k hk => hm _ (h k hk)

/-- what is known about a bound pure expression, in whatever state: it is the original expression with caches in the two
blocks, disjoint from the storage of its variables -/
structure Bnd {α : Type} (e b : Expr α) (BV BA : Set ℕ) (vok aok : ℕ → Bool) : Prop where
  strip : b.strip = e.strip
  wf : b.WF
  wb : b.WB vok aok
  ownV : b.ownV ⊆ BV
  ownA : b.ownA ⊆ BA
  dV : Disjoint BV b.reads
  dA : Disjoint BA b.readsA

omit [HasInf ℝ] [LinAlg ℝ] in
theorem bindExpr_bnd {α : Type} {e : Expr α} {s : St α} {qv qa : ℕ} {jv ja : ℕ → α} (hwf : e.WF) (hal : e.Alive s.vok s.aok)
    (hf : Fresh s e.bindSize qv qa) :
    Bnd e (bindExpr e qv qa jv ja s).1 (blockV qv e.bindSize) (blockA qa e.bindSize)
      (bindExpr e qv qa jv ja s).2.vok (bindExpr e qv qa jv ja s).2.aok := by
  have hst := bind_strip e ⟨vecData qv e.bindSize.val, vecData qa e.bindSize.adj⟩
  have hmv : ∀ a, s.vok a = true → (bindExpr e qv qa jv ja s).2.vok a = true := by
    intro a h; simp [bindExpr, St.allocate, h]
  have hma : ∀ a, s.aok a = true → (bindExpr e qv qa jv ja s).2.aok a = true := by
    intro a h; simp [bindExpr, St.allocate, h]
  have hb := bind_ok (bindExpr e qv qa jv ja s).2.vok (bindExpr e qv qa jv ja s).2.aok e
    ⟨vecData qv e.bindSize.val, vecData qa e.bindSize.adj⟩ hwf
    (leavesOk_of_alive e ⟨fun v hv => ⟨(hal.1 v hv).1.mono hmv, (hal.1 v hv).2.mono hma⟩, fun c hc => (hal.2 c hc).mono hmv⟩)
    (accessible_vecData fun k hk => by simp [bindExpr, St.allocate, hk])
    (accessible_vecData fun k hk => by simp [bindExpr, St.allocate, hk])
  refine ⟨hst, (Expr.WF_of_strip hst).2 hwf, hb.wb, hb.ownV.trans (rng_vecData_sub _ _), hb.ownA.trans (rng_vecData_sub _ _), ?_, ?_⟩
  · show Disjoint _ (Expr.bind e _).1.reads
    rw [Expr.reads_of_strip hst, Set.disjoint_left]
    intro a ha hr
    obtain ⟨k, hk, rfl⟩ := mem_rng_iff.1 ha
    have h0 := hf.1 k hk
    rcases reads_cells e _ hr with h | h
    · obtain ⟨v, hv, h⟩ := mem_valCells.1 h
      obtain ⟨j, hj, h⟩ := mem_rng_iff.1 h
      have := accessible_mem (hal.1 v hv).1 hj
      rw [← h] at this
      exact absurd (h0.symm.trans this) (by simp)
    · obtain ⟨v, hv, h⟩ := mem_constCells.1 h
      obtain ⟨j, hj, h⟩ := mem_rng_iff.1 h
      have := accessible_mem (hal.2 v hv) hj
      rw [← h] at this
      exact absurd (h0.symm.trans this) (by simp)
  · show Disjoint _ (Expr.bind e _).1.readsA
    rw [Expr.readsA_of_strip hst, Set.disjoint_left]
    intro a ha hr
    obtain ⟨k, hk, rfl⟩ := mem_rng_iff.1 ha
    have h0 := hf.2 k hk
    obtain ⟨v, hv, h⟩ := mem_adjCells.1 (readsA_cells e _ hr)
    obtain ⟨j, hj, h⟩ := mem_rng_iff.1 h
    have := accessible_mem (hal.1 v hv).2 hj
    rw [← h] at this
    exact absurd (h0.symm.trans this) (by simp)

/-- Outcome of `evaluate` of a bound expression whose variables have the values `m`. -/
structure EvalOk (e b : Expr ℝ) (BV : Set ℕ) (m : ℕ → ℝ) (s s' : St ℝ) (r : Ref ℝ) : Prop where
  run : evaluate b s = some (s', r)
  adj : s'.adj = s.adj
  vok : s'.vok = s.vok
  aok : s'.aok = s.aok
  frame : ∀ a, a ∉ BV → s'.val a = s.val a
  cached : b.Cached m s'.val
  value : ∀ s'' : St ℝ, s''.vok = s'.vok → s''.val = s'.val → r.read s'' e.size = some (trunc e.size (e.denote m))

omit [HasInf ℝ] [LinAlg ℝ] in
theorem Bnd.size {α : Type} {e b : Expr α} {BV BA : Set ℕ} {vok aok : ℕ → Bool} (h : Bnd e b BV BA vok aok) : b.size = e.size := by
  rw [Expr.size, Expr.shape_of_strip h.strip, Expr.size]

theorem Bnd.evaluate {e b : Expr ℝ} {BV BA : Set ℕ} {s : St ℝ} (h : Bnd e b BV BA s.vok s.aok) {m : ℕ → ℝ}
    (hm : ∀ a ∈ e.reads, s.val a = m a) : ∃ s' r, EvalOk e b BV m s s' r := by
  obtain ⟨s', r, h1⟩ := feval_ok b m s h.wf h.wb (h.dV.mono_left h.ownV) (by rwa [Expr.reads_of_strip h.strip])
  have hden := Expr.denote_of_strip h.strip m
  have hread := h1.ref.1 s' rfl fun _ _ => rfl
  by_cases hs : b.shape.isScl = true
  · have h1s : b.size = 1 := (h.wf.shapeOk).size_scl hs
    refine ⟨s', .lit (trunc 1 (e.denote m)), ⟨?_, h1.adj, h1.vok, h1.aok, fun a ha => h1.frame a fun x => ha (h.ownV x), h1.cached, ?_⟩⟩
    · rw [FastAD.evaluate, h1.run]
      simp only [Option.bind_eq_bind, Option.bind_some, hs, if_true]
      rw [h1s] at hread
      rw [hread, hden]
      rfl
    · intro s'' _ _
      rw [← h.size, h1s]
      simp only [Ref.read, trunc_trunc]
  · refine ⟨s', r, ⟨?_, h1.adj, h1.vok, h1.aok, fun a ha => h1.frame a fun x => ha (h.ownV x), h1.cached, ?_⟩⟩
    · rw [FastAD.evaluate, h1.run]
      simp [hs]
    · intro s'' hv hval
      have := h1.ref.1 s'' hv fun a _ => by rw [hval]
      rwa [h.size, hden] at this

/-- Outcome of `evaluate_adj` of a bound expression whose caches are those of an evaluation at store `m`. -/
structure AdjOk (e b : Expr ℝ) (BA : Set ℕ) (m : ℕ → ℝ) (seed : ℕ → ℝ) (s s' : St ℝ) : Prop where
  run : evaluateAdj b seed s = some s'
  val : s'.val = s.val
  vok : s'.vok = s.vok
  aok : s'.aok = s.aok
  adj : ∀ a, a ∉ BA → s'.adj a = s.adj a + e.grad m seed a

theorem Bnd.evaluateAdj {e b : Expr ℝ} {BV BA : Set ℕ} {s : St ℝ} (h : Bnd e b BV BA s.vok s.aok) {m : ℕ → ℝ}
    (hc : b.Cached m s.val) (seed : ℕ → ℝ) : ∃ s', AdjOk e b BA m seed s s' := by
  obtain ⟨s', h1⟩ := beval_ok b m s seed h.wf h.wb (h.dV.mono_left h.ownV) (h.dA.mono_left h.ownA) hc
  refine ⟨s', h1.run, h1.val, h1.vok, h1.aok, fun a ha => ?_⟩
  rw [h1.adj a fun x => ha (h.ownA x), Expr.grad_of_strip h.strip]

/-- Outcome of `autodiff` of a bound expression whose variables have the values `m`. -/
structure AutoOk (e b : Expr ℝ) (BV BA : Set ℕ) (m seed : ℕ → ℝ) (s s' : St ℝ) (r : Ref ℝ) : Prop where
  run : autodiff b seed s = some (s', r)
  vok : s'.vok = s.vok
  aok : s'.aok = s.aok
  val : ∀ a, a ∉ BV → s'.val a = s.val a
  adj : ∀ a, a ∉ BA → s'.adj a = s.adj a + e.grad m seed a
  value : r.read s' e.size = some (trunc e.size (e.denote m))

theorem Bnd.autodiff {e b : Expr ℝ} {BV BA : Set ℕ} {s : St ℝ} (h : Bnd e b BV BA s.vok s.aok) {m : ℕ → ℝ}
    (hm : ∀ a ∈ e.reads, s.val a = m a) (seed : ℕ → ℝ) : ∃ s' r, AutoOk e b BV BA m seed s s' r := by
  obtain ⟨s1, r, h1⟩ := h.evaluate hm
  obtain ⟨s2, h2⟩ := (show Bnd e b BV BA s1.vok s1.aok by rw [h1.vok, h1.aok]; exact h).evaluateAdj h1.cached seed
  refine ⟨s2, r, ?_, h2.vok.trans h1.vok, h2.aok.trans h1.aok, fun a ha => ?_, fun a ha => ?_, h1.value s2 h2.vok h2.val⟩
  · rw [FastAD.autodiff, h1.run]
    simp [h2.run]
  · rw [h2.val, h1.frame a ha]
  · rw [h2.adj a ha, h1.adj]

/-! ### Derivatives -/

theorem shift_zero (m u : ℕ → ℝ) : shift m u 0 = m := by funext c; simp [shift]

/-- directional derivative in terms of `grad` -/
theorem grad_directional [LawfulLinAlg] {e : Expr ℝ} (hwf : e.WF) {π : ℕ → ℕ} (hπ : e.Paired π) {m u : ℕ → ℝ}
    (hu : ∀ c ∈ e.constCells, u c = 0) (hreg : e.Reg (shift m u) 0) (seed : ℕ → ℝ) :
    HasDerivAt (fun t => ∑ k ∈ Finset.range e.size, seed k * e.denote (shift m u t) k)
      (∑ a ∈ e.adjCells, e.grad m seed a * u (π a)) 0 := by
  have hline : ∀ c, HasFDerivAt (fun t => shift m u t c) (ContinuousLinearMap.toSpanSingleton ℝ (u c)) 0 := by
    intro c
    have : HasDerivAt (fun t : ℝ => m c + t * u c) (u c) 0 := by
      simpa using ((hasDerivAt_id (0:ℝ)).mul_const (u c)).const_add (m c)
    exact this.hasFDerivAt
  obtain ⟨D, hD⟩ := calc_ok (shift m u) (fun a => ContinuousLinearMap.toSpanSingleton ℝ (u (π a))) 0 e hwf
    (leaves_of e hwf (fun v hv k hk => by rw [hπ v hv k hk]; exact hline _)
      (fun c hc k hk => Filter.Eventually.of_forall fun t => by
        have : u (addr c.2 + k) = 0 := hu _ (mem_constCells.2 ⟨c, hc, add_mem_rng hk⟩)
        simp [shift, this])) hreg
  have h1 : HasFDerivAt (fun t => ∑ k ∈ Finset.range e.size, seed k * e.denote (shift m u t) k)
      (∑ k ∈ Finset.range e.size, seed k • D k) 0 := by
    refine HasFDerivAt.fun_sum fun k hk => ?_
    exact (hD.deriv k (Finset.mem_range.1 hk)).const_mul (seed k)
  have h2 := hD.adj seed e.adjCells (fun a ha => readsA_cells e a ha)
  rw [← h2] at h1
  have h3 := h1.hasDerivAt
  rw [shift_zero] at h3
  convert h3 using 1
  simp [_root_.sum_apply, _root_.smul_apply]

/-- partial derivative in terms of `grad` -/
theorem grad_partial [LawfulLinAlg] {e : Expr ℝ} (hwf : e.WF) {π : ℕ → ℕ} (hπ : e.Paired π)
    (hinj : Set.InjOn π e.adjCells) (hc : ∀ a ∈ e.adjCells, π a ∉ e.constCells) {m : ℕ → ℝ} {a : ℕ}
    (ha : a ∈ e.adjCells) (hreg : e.Reg (fun t => Function.update m (π a) t) (m (π a))) (seed : ℕ → ℝ) :
    HasDerivAt (fun t => ∑ k ∈ Finset.range e.size, seed k * e.denote (Function.update m (π a) t) k)
      (e.grad m seed a) (m (π a)) := by
  classical
  let ρ : ℝ → ℕ → ℝ := fun t => Function.update m (π a) t
  have hline : ∀ c, HasFDerivAt (fun t => ρ t c)
      (ContinuousLinearMap.toSpanSingleton ℝ (if c = π a then (1:ℝ) else 0)) (m (π a)) := by
    intro c
    refine HasDerivAt.hasFDerivAt ?_
    by_cases h : c = π a
    · subst h
      simpa [ρ] using hasDerivAt_id' (m (π a))
    · simpa [ρ, h] using hasDerivAt_const (m (π a)) (m c)
  obtain ⟨D, hD⟩ := calc_ok ρ (fun b => ContinuousLinearMap.toSpanSingleton ℝ (if π b = π a then (1:ℝ) else 0)) (m (π a)) e hwf
    (leaves_of e hwf (fun v hv k hk => by rw [hπ v hv k hk]; exact hline _)
      (fun c hcv k hk => Filter.Eventually.of_forall fun t => by
        have : addr c.2 + k ≠ π a := fun h => hc a ha (h ▸ mem_constCells.2 ⟨c, hcv, add_mem_rng hk⟩)
        simp [ρ, this])) hreg
  have h1 : HasFDerivAt (fun t => ∑ k ∈ Finset.range e.size, seed k * e.denote (ρ t) k)
      (∑ k ∈ Finset.range e.size, seed k • D k) (m (π a)) := by
    refine HasFDerivAt.fun_sum fun k hk => ?_
    exact (hD.deriv k (Finset.mem_range.1 hk)).const_mul (seed k)
  have h2 := hD.adj seed e.adjCells (fun a ha => readsA_cells e a ha)
  rw [← h2] at h1
  have h3 := h1.hasDerivAt
  have hm : ρ (m (π a)) = m := by simp [ρ]
  rw [hm] at h3
  convert h3 using 1
  rw [_root_.sum_apply, Finset.sum_eq_single a]
  · simp [_root_.smul_apply]
  · intro b hb hne
    have : π b ≠ π a := fun h => hne (hinj hb ha h)
    simp [this]
  · intro h; exact absurd ha h

end FastAD
