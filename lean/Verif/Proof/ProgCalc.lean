import Verif.Proof.Program

/-!
# Derivatives of programs: the reverse sweep pulls adjoints back through the statements
-/

open scoped Topology

namespace FastAD

variable [HasInf ℝ] [LinAlg ℝ]
set_option linter.unusedSectionVars false

variable {E : Type} [NormedAddCommGroup E] [NormedSpace ℝ E]

/-- value cells a statement assigns -/
def Expr.targ : Expr ℝ → Set ℕ
  | .eq v _ _ => rng v.val v.size
  | .opEq _ v _ _ _ => rng v.val v.size
  | _ => ∅

theorem Expr.exec_off {x : Expr ℝ} (h : x.WFStmt) {a : ℕ} (ha : a ∉ x.targ) (m : ℕ → ℝ) : x.exec m a = m a := by
  cases x with
  | eq v e w => exact assign_off ha
  | opEq op v e w c => exact assign_off ha
  | glue => exact h.elim
  | forEach => exact h.elim
  | _ => rfl

theorem AOp.hasFDerivAt (op : AOp) {f g : E → ℝ} {f' g' : E →L[ℝ] ℝ} {x0 : E} (hf : HasFDerivAt f f' x0) (hg : HasFDerivAt g g' x0)
    (hd : op = .div → g x0 ≠ 0) :
    HasFDerivAt (fun x => op.real (f x) (g x)) (op.bl 1 (f x0) (g x0) • f' + op.br 1 (f x0) (g x0) • g') x0 := by
  cases op with
  | add =>
    simp only [AOp.real, AOp.bl, AOp.br, one_smul]
    exact hf.add hg
  | sub =>
    simp only [AOp.real, AOp.bl, AOp.br, one_smul]
    convert! hf.sub hg using 1
    ext y
    simp [sub_eq_add_neg]
  | mul =>
    have := hf.mul hg
    simp only [AOp.real, AOp.bl, AOp.br, one_mul]
    rw [add_comm]
    exact this
  | div =>
    have h0 := hd rfl
    have := hf.mul ((hasDerivAt_inv h0).comp_hasFDerivAt x0 hg)
    simp only [AOp.real, AOp.bl, AOp.br, div_eq_mul_inv]
    convert! this using 1
    ext y
    simp
    field_simp
    ring

theorem AOp.bl_linear (op : AOp) (g x y : ℝ) : op.bl g x y = g * op.bl 1 x y := by
  cases op <;> simp [AOp.bl, div_eq_mul_inv]
theorem AOp.br_linear (op : AOp) (g x y : ℝ) : op.br g x y = g * op.br 1 x y := by
  cases op <;> simp [AOp.br, div_eq_mul_inv]; ring

/-- what differentiating through one statement delivers -/
structure PullOk (x : Expr ℝ) (ρ : E → ℕ → ℝ) (x0 : E) (π : ℕ → ℕ) (V : Finset ℕ) (γ γ' : ℕ → E →L[ℝ] ℝ) (D : ℕ → E →L[ℝ] ℝ) : Prop where
  store : ∀ c, HasFDerivAt (fun t => x.exec (ρ t) c) (γ' c) x0
  off : ∀ c, c ∉ x.targ → γ' c = γ c
  deriv : ∀ k < x.size, HasFDerivAt (fun t => x.result (ρ t) k) (D k) x0
  pull : ∀ seed A, ∑ a ∈ V, x.back (ρ x0) seed A a • γ (π a) =
    ∑ a ∈ V, A a • γ' (π a) + ∑ k ∈ Finset.range x.size, seed k • D k

variable [LawfulLinAlg]

theorem pull_pure {e : Expr ℝ} (hs : e.isStmt = false) (hwf : e.WF) {ρ : E → ℕ → ℝ} {x0 : E} {π : ℕ → ℕ} {V : Finset ℕ} {γ : ℕ → E →L[ℝ] ℝ}
    (hγ : ∀ c, HasFDerivAt (fun t => ρ t c) (γ c) x0) (hc : ∀ c ∈ e.constCells, ∀ᶠ t in 𝓝 x0, ρ t c = ρ x0 c)
    (hπ : e.Paired π) (hV : e.adjCells ⊆ V) (hreg : e.Reg ρ x0) :
    ∃ D, PullOk e ρ x0 π V γ γ D := by
  obtain ⟨D, hD, hA⟩ := calc_ok ρ (fun a => γ (π a)) x0 e hwf
    (leaves_of e hwf (fun v hv k hk => by rw [hπ v hv k hk]; exact hγ _)
      (fun c hcv k hk => hc _ (mem_constCells.2 ⟨c, hcv, add_mem_rng hk⟩))) hreg
  refine ⟨D, fun c => ?_, fun _ _ => rfl, fun k hk => ?_, fun seed A => ?_⟩
  · simp only [hwf.exec]; exact hγ c
  · simp only [hwf.result]; exact hD k hk
  · rw [← hA seed V fun a ha => hV (readsA_cells e a ha), ← Finset.sum_add_distrib]
    refine Finset.sum_congr rfl fun a _ => ?_
    rw [← add_smul]
    congr 1
    cases e <;> first | rfl | simp [Expr.isStmt] at hs

open Classical in
theorem pull_stmt {x : Expr ℝ} (hwf : x.WFStmt) {ρ : E → ℕ → ℝ} {x0 : E} {π : ℕ → ℕ} {V : Finset ℕ} {γ : ℕ → E →L[ℝ] ℝ}
    (hγ : ∀ c, HasFDerivAt (fun t => ρ t c) (γ c) x0) (hc : ∀ c ∈ x.constCells, ∀ᶠ t in 𝓝 x0, ρ t c = ρ x0 c)
    (hπ : x.Paired π) (hV : x.adjCells ⊆ V) (hinj : Set.InjOn π V) (hplace : ∀ c ∈ x.place, γ c = 0) (hreg : x.RegStmt ρ x0) :
    ∃ γ' D, PullOk x ρ x0 π V γ γ' D := by
  by_cases hs : x.isStmt = false
  · have hw := (WFStmt_pure hs hwf).1
    have hr : x.Reg ρ x0 := by
      cases x <;> first | exact hreg | simp [Expr.isStmt] at hs
    exact ⟨γ, pull_pure hs hw hγ hc hπ hV hr⟩
  · -- facts about the assigned variable `v`
    have target : ∀ v : View, v ∈ x.vars → ∀ a ∈ V, (π a ∈ rng v.val v.size ↔ a ∈ rng v.adj v.size) ∧
        (a ∈ rng v.adj v.size → π a = addr v.val + (a - addr v.adj)) := by
      intro v hv a ha
      have h2 : a ∈ rng v.adj v.size → π a = addr v.val + (a - addr v.adj) := by
        intro h
        obtain ⟨k, hk, rfl⟩ := mem_rng_iff.1 h
        rw [hπ v hv k hk, Nat.add_sub_cancel_left]
      refine ⟨⟨fun h => ?_, fun h => ?_⟩, h2⟩
      · obtain ⟨k, hk, h⟩ := mem_rng_iff.1 h
        rw [← hπ v hv k hk] at h
        have hm : addr v.adj + k ∈ V := hV (mem_adjCells.2 ⟨v, hv, add_mem_rng hk⟩)
        rw [hinj ha hm h]
        exact add_mem_rng hk
      · obtain ⟨k, hk, rfl⟩ := mem_rng_iff.1 h
        rw [hπ v hv k hk]
        exact add_mem_rng hk
    cases x with
    | eq v e w =>
      obtain ⟨hw, hok, hsh, hws, hne, hcell⟩ := hwf
      have hv : v ∈ (Expr.eq v e w).vars := by simp [Expr.vars]
      have hvV : ∀ k < v.size, addr v.adj + k ∈ V := fun k hk => hV (mem_adjCells.2 ⟨v, hv, add_mem_rng hk⟩)
      have hsz : e.size = v.size := by rw [Expr.size, hsh, View.size]
      have hwsz : (Expr.eq v e w).size = v.size := by
        show w.size = _
        rw [View.size, hws, View.size]
      have heV : (e.adjCells : Finset ℕ) ⊆ V := by
        refine subset_trans ?_ hV
        intro a ha
        obtain ⟨u, hu, h⟩ := mem_adjCells.1 ha
        exact mem_adjCells.2 ⟨u, by simp [Expr.vars, hu], h⟩
      obtain ⟨D, hD, hA⟩ := calc_ok ρ (fun a => γ (π a)) x0 e hw
        (leaves_of e hw (fun u hu k hk => by rw [hπ u (by simp [Expr.vars, hu]) k hk]; exact hγ _)
          (fun c hcv k hk => hc _ (mem_constCells.2 ⟨c, hcv, add_mem_rng hk⟩))) hreg
      refine ⟨fun c => if c ∈ rng v.val v.size then D (c - addr v.val) else γ c, D, fun c => ?_, fun c hc => if_neg hc, fun k hk => ?_, fun seed A => ?_⟩
      · by_cases hcv : c ∈ rng v.val v.size
        · rw [if_pos hcv]
          obtain ⟨k, hk, rfl⟩ := mem_rng_iff.1 hcv
          simp only [Expr.exec, assign_add hk, Nat.add_sub_cancel_left]
          exact hD k (hsz ▸ hk)
        · rw [if_neg hcv]
          simp only [Expr.exec, assign_off hcv]
          exact hγ c
      · simp only [Expr.result]
        exact hD k (by rw [hsz, ← hwsz]; exact hk)
      · rw [hwsz]
        have h1 : ∑ a ∈ V, (Expr.eq v e w).back (ρ x0) seed A a • γ (π a) =
            ∑ a ∈ V, (if a ∈ rng v.adj v.size then 0 else A a • γ (π a)) +
              ∑ k ∈ Finset.range v.size, (A (addr v.adj + k) + seed k) • D k := by
          have h3 := hA (fun k => A (addr v.adj + k) + seed k) V fun a ha => heV (readsA_cells e a ha)
          rw [hsz] at h3
          rw [← h3, ← Finset.sum_add_distrib]
          refine Finset.sum_congr rfl fun a ha => ?_
          simp only [Expr.back]
          by_cases hav : a ∈ rng v.adj v.size
          · have : γ (π a) = 0 := hplace _ (((target v hv a ha).1).2 hav)
            rw [if_pos hav, this]
            simp
          · rw [if_neg hav, if_neg hav, add_zero, add_smul]
        have h2 : ∑ a ∈ V, A a • (if π a ∈ rng v.val v.size then D (π a - addr v.val) else γ (π a)) =
            ∑ a ∈ V, (if a ∈ rng v.adj v.size then 0 else A a • γ (π a)) +
              ∑ k ∈ Finset.range v.size, A (addr v.adj + k) • D k := by
          have h3 := sum_var (fun a => D (a - addr v.adj)) (addr v.adj) v.size (fun k => A (addr v.adj + k)) V hvV
          simp only [Nat.add_sub_cancel_left] at h3
          rw [← h3, ← Finset.sum_add_distrib]
          refine Finset.sum_congr rfl fun a ha => ?_
          by_cases hav : a ∈ rng v.adj v.size
          · rw [if_pos (((target v hv a ha).1).2 hav), if_pos hav, if_pos (mem_rng.1 hav), (target v hv a ha).2 hav, Nat.add_sub_cancel_left, zero_add,
              Nat.add_sub_cancel' (mem_rng.1 hav).1]
          · rw [if_neg fun h => hav (((target v hv a ha).1).1 h), if_neg hav, if_neg (show ¬ (addr v.adj ≤ a ∧ a < addr v.adj + v.size) from hav), zero_smul, add_zero]
        rw [h1, h2, add_assoc, ← Finset.sum_add_distrib]
        congr 1
        exact Finset.sum_congr rfl fun k _ => add_smul _ _ _
    | opEq op v e w c =>
      obtain ⟨hw, hok, hsh, hws, hcs, hif, hov⟩ := hwf
      have hv : v ∈ (Expr.opEq op v e w c).vars := by simp [Expr.vars]
      have hvV : ∀ k < v.size, addr v.adj + k ∈ V := fun k hk => hV (mem_adjCells.2 ⟨v, hv, add_mem_rng hk⟩)
      have hwsz : (Expr.opEq op v e w c).size = v.size := by
        show w.size = _
        rw [View.size, hws, View.size]
      have heV : (e.adjCells : Finset ℕ) ⊆ V := by
        refine subset_trans ?_ hV
        intro a ha
        obtain ⟨u, hu, h⟩ := mem_adjCells.1 ha
        exact mem_adjCells.2 ⟨u, by simp [Expr.vars, hu], h⟩
      obtain ⟨D, hD, hA⟩ := calc_ok ρ (fun a => γ (π a)) x0 e hw
        (leaves_of e hw (fun u hu k hk => by rw [hπ u (by simp [Expr.vars, hu]) k hk]; exact hγ _)
          (fun c hcv k hk => hc _ (mem_constCells.2 ⟨c, hcv, add_mem_rng hk⟩))) hreg.1
      have hdim : e.shape.isScl = true ∨ sameDims e.shape v.shape := hsh.imp id fun h => by rw [h]; exact ⟨rfl, rfl⟩
      have hbi : ∀ k < v.size, e.shape.bidx k < e.size := by
        intro k hk
        by_cases hs : e.shape.isScl = true
        · simp [Shape.bidx, hs, Expr.size, hw.shapeOk.size_scl hs]
        · simp only [Shape.bidx, hs]
          rw [Expr.size, hsh.resolve_left hs]
          exact hk
      let pl : ℕ → ℝ := fun k => op.bl 1 (ρ x0 (addr v.val + k)) (e.denote (ρ x0) (e.shape.bidx k))
      let pr : ℕ → ℝ := fun k => op.br 1 (ρ x0 (addr v.val + k)) (e.denote (ρ x0) (e.shape.bidx k))
      let D' : ℕ → E →L[ℝ] ℝ := fun k => pl k • γ (addr v.val + k) + pr k • D (e.shape.bidx k)
      have hD' : ∀ k < v.size, HasFDerivAt (fun t => op.real (ρ t (addr v.val + k)) (e.denote (ρ t) (e.shape.bidx k))) (D' k) x0 := by
        intro k hk
        exact op.hasFDerivAt (hγ _) (hD _ (hbi k hk)) fun h => hreg.2 h _ (hbi k hk)
      refine ⟨fun c => if c ∈ rng v.val v.size then D' (c - addr v.val) else γ c, D', fun c => ?_, fun c hc => if_neg hc, fun k hk => ?_, fun seed A => ?_⟩
      · by_cases hcv : c ∈ rng v.val v.size
        · rw [if_pos hcv]
          obtain ⟨k, hk, rfl⟩ := mem_rng_iff.1 hcv
          simp only [Expr.exec, assign_add hk, Nat.add_sub_cancel_left]
          exact hD' k hk
        · rw [if_neg hcv]
          simp only [Expr.exec, assign_off hcv]
          exact hγ c
      · simp only [Expr.result]
        exact hD' k (by rw [← hwsz]; exact hk)
      · rw [hwsz]
        have h1 : ∑ a ∈ V, (Expr.opEq op v e w c).back (ρ x0) seed A a • γ (π a) =
            ∑ a ∈ V, (if a ∈ rng v.adj v.size then 0 else A a • γ (π a)) +
              (∑ k ∈ Finset.range v.size, ((A (addr v.adj + k) + seed k) * pl k) • γ (addr v.val + k) +
              ∑ k ∈ Finset.range v.size, ((A (addr v.adj + k) + seed k) * pr k) • D (e.shape.bidx k)) := by
          have h3 := sum_var (fun a => γ (addr v.val + (a - addr v.adj))) (addr v.adj) v.size
            (fun k => (A (addr v.adj + k) + seed k) * pl k) V hvV
          simp only [Nat.add_sub_cancel_left] at h3
          have h4 := sum_collapse D hw.shapeOk hok hdim (fun k => (A (addr v.adj + k) + seed k) * pr k)
          rw [show v.shape.size = v.size from rfl, show e.shape.size = e.size from rfl] at h4
          rw [← h3, ← h4, ← hA _ V fun a ha => heV (readsA_cells e a ha), ← Finset.sum_add_distrib, ← Finset.sum_add_distrib]
          refine Finset.sum_congr rfl fun a ha => ?_
          have hgr : (fun k => op.br (A (addr v.adj + k) + seed k) (ρ x0 (addr v.val + k)) (e.denote (ρ x0) (if e.shape.isScl then 0 else k))) =
              fun k => (A (addr v.adj + k) + seed k) * pr k := by
            funext k
            rw [op.br_linear]
            rfl
          simp only [Expr.back, hgr, add_smul]
          rw [← add_assoc]
          congr 1
          by_cases hav : a ∈ rng v.adj v.size
          · rw [if_pos hav, if_pos hav, if_pos (mem_rng.1 hav), zero_add, (target v hv a ha).2 hav, op.bl_linear,
              Nat.add_sub_cancel' (mem_rng.1 hav).1]
            rfl
          · rw [if_neg hav, if_neg hav, if_neg (show ¬ (addr v.adj ≤ a ∧ a < addr v.adj + v.size) from hav), zero_smul, add_zero]
        have h2 : ∑ a ∈ V, A a • (if π a ∈ rng v.val v.size then D' (π a - addr v.val) else γ (π a)) =
            ∑ a ∈ V, (if a ∈ rng v.adj v.size then 0 else A a • γ (π a)) +
              ∑ k ∈ Finset.range v.size, A (addr v.adj + k) • D' k := by
          have h3 := sum_var (fun a => D' (a - addr v.adj)) (addr v.adj) v.size (fun k => A (addr v.adj + k)) V hvV
          simp only [Nat.add_sub_cancel_left] at h3
          rw [← h3, ← Finset.sum_add_distrib]
          refine Finset.sum_congr rfl fun a ha => ?_
          by_cases hav : a ∈ rng v.adj v.size
          · rw [if_pos (((target v hv a ha).1).2 hav), if_pos hav, if_pos (mem_rng.1 hav), (target v hv a ha).2 hav, Nat.add_sub_cancel_left, zero_add,
              Nat.add_sub_cancel' (mem_rng.1 hav).1]
          · rw [if_neg fun h => hav (((target v hv a ha).1).1 h), if_neg hav, if_neg (show ¬ (addr v.adj ≤ a ∧ a < addr v.adj + v.size) from hav), zero_smul, add_zero]
        rw [h1, h2, add_assoc]
        congr 1
        rw [← Finset.sum_add_distrib, ← Finset.sum_add_distrib]
        refine Finset.sum_congr rfl fun k _ => ?_
        rw [← add_smul, smul_add, smul_smul, smul_smul]
    | _ => simp [Expr.isStmt] at hs

/-- what differentiating through a sequence of statements delivers -/
structure PullLOk (L : List (Expr ℝ)) (ρ : E → ℕ → ℝ) (x0 : E) (π : ℕ → ℕ) (V : Finset ℕ) (γ γ' : ℕ → E →L[ℝ] ℝ) (n : ℕ)
    (D : ℕ → E →L[ℝ] ℝ) : Prop where
  store : ∀ c, HasFDerivAt (fun t => execL L (ρ t) c) (γ' c) x0
  off : ∀ c, (∀ x ∈ L, c ∉ x.targ) → γ' c = γ c
  deriv : ∀ k < n, HasFDerivAt (fun t => resultL L (ρ t) k) (D k) x0
  pull : ∀ seed A, ∑ a ∈ V, backL L (ρ x0) seed A a • γ (π a) =
    ∑ a ∈ V, A a • γ' (π a) + ∑ k ∈ Finset.range n, seed k • D k

omit [LawfulLinAlg] in
theorem targ_cells {x : Expr ℝ} {c : ℕ} (h : c ∈ x.targ) : c ∈ x.valCells := by
  cases x with
  | eq v e w => exact mem_valCells.2 ⟨v, by simp [Expr.vars], h⟩
  | opEq op v e w c => exact mem_valCells.2 ⟨v, by simp [Expr.vars], h⟩
  | _ => exact h.elim

theorem pull_list (L : List (Expr ℝ)) (hwf : ∀ x ∈ L, x.WFStmt) {ρ : E → ℕ → ℝ} {x0 : E} {π : ℕ → ℕ} {V : Finset ℕ} {γ : ℕ → E →L[ℝ] ℝ}
    (hγ : ∀ c, HasFDerivAt (fun t => ρ t c) (γ c) x0) (hc : ∀ x ∈ L, ∀ c ∈ x.constCells, ∀ᶠ t in 𝓝 x0, ρ t c = ρ x0 c)
    (hct : ∀ x ∈ L, ∀ c ∈ x.constCells, ∀ y ∈ L, c ∉ y.targ)
    (hπ : ∀ x ∈ L, x.Paired π) (hV : ∀ x ∈ L, x.adjCells ⊆ V) (hinj : Set.InjOn π V) (ho : L.Pairwise UsedAfter)
    (hplace : ∀ x ∈ L, ∀ c ∈ x.place, γ c = 0) (hreg : RegSeq L ρ x0) :
    ∃ γ' D, PullLOk L ρ x0 π V γ γ' (sizeR L) D := by
  induction L generalizing ρ γ with
  | nil =>
    refine ⟨γ, fun _ => 0, hγ, fun _ _ => rfl, fun k hk => ?_, fun seed A => by simp [backL, sizeR]⟩
    simp [sizeR] at hk
  | cons x xs ih =>
    obtain ⟨γ1, D1, h1⟩ := pull_stmt (hwf x (by simp)) hγ (hc x (by simp)) (hπ x (by simp)) (hV x (by simp)) hinj (hplace x (by simp)) hreg.1
    obtain ⟨ho1, ho2⟩ := List.pairwise_cons.1 ho
    have hxw := hwf x (by simp)
    obtain ⟨γ2, D2, h2⟩ := ih (fun y hy => hwf y (by simp [hy])) (ρ := fun t => x.exec (ρ t)) (γ := γ1) h1.store
      (fun y hy c hcc => by
        have h0 : c ∉ x.targ := hct y (by simp [hy]) c hcc x (by simp)
        filter_upwards [hc y (by simp [hy]) c hcc] with t ht
        rw [x.exec_off hxw h0, x.exec_off hxw h0, ht])
      (fun y hy c hcc z hz => hct y (by simp [hy]) c hcc z (by simp [hz]))
      (fun y hy => hπ y (by simp [hy])) (fun y hy => hV y (by simp [hy])) ho2
      (fun y hy c hcp => by
        have h0 : c ∉ x.targ := by
          intro h
          cases y with
          | eq v e w =>
            obtain ⟨k, hk, rfl⟩ := mem_rng_iff.1 hcp
            exact (ho1 _ hy v rfl k hk).1 (targ_cells h)
          | _ => exact hcp.elim
        rw [h1.off c h0]
        exact hplace y (by simp [hy]) c hcp) hreg.2
    cases xs with
    | nil =>
      refine ⟨γ1, D1, h1.store, fun c hcc => h1.off c (hcc x (by simp)), h1.deriv, fun seed A => ?_⟩
      exact h1.pull seed A
    | cons y ys =>
      refine ⟨γ2, D2, h2.store, fun c hcc => ?_, h2.deriv, fun seed A => ?_⟩
      · rw [h2.off c fun z hz => hcc z (by simp [hz]), h1.off c (hcc x (by simp))]
      · have h3 := h1.pull (fun _ => 0) (backL (y :: ys) (x.exec (ρ x0)) seed A)
        simp only [zero_smul, Finset.sum_const_zero, add_zero] at h3
        rw [show backL (x :: y :: ys) (ρ x0) seed A = x.back (ρ x0) (fun _ => 0) (backL (y :: ys) (x.exec (ρ x0)) seed A) from rfl, h3]
        exact h2.pull seed A

/-! ### Programs -/

omit [LawfulLinAlg] in
theorem mem_targetCells {p : Expr ℝ} {c : ℕ} : c ∈ p.targetCells ↔ ∃ x ∈ p.flat, c ∈ x.targ := by
  simp only [Expr.targetCells, List.mem_toFinset, List.mem_flatMap, List.mem_filterMap, mem_cells]
  constructor
  · rintro ⟨v, ⟨x, hx, hv⟩, h⟩
    refine ⟨x, hx, ?_⟩
    cases x <;> simp [Expr.target] at hv <;> (subst hv; exact h)
  · rintro ⟨x, hx, h⟩
    cases x with
    | eq v e w => exact ⟨v, ⟨_, hx, rfl⟩, h⟩
    | opEq op v e w c => exact ⟨v, ⟨_, hx, rfl⟩, h⟩
    | _ => exact h.elim

omit [LawfulLinAlg] in
theorem mem_targetAdj {p : Expr ℝ} {a : ℕ} : a ∈ p.targetAdj ↔ ∃ x ∈ p.flat, ∃ v ∈ x.target, a ∈ rng v.adj v.size := by
  simp only [Expr.targetAdj, List.mem_toFinset, List.mem_flatMap, List.mem_filterMap, mem_cells]
  constructor
  · rintro ⟨v, ⟨x, hx, hv⟩, h⟩
    exact ⟨x, hx, v, hv, h⟩
  · rintro ⟨x, hx, v, hv, h⟩
    exact ⟨v, ⟨x, hx, hv⟩, h⟩

omit [LawfulLinAlg] in
theorem target_vars {x : Expr ℝ} {v : View} (h : v ∈ x.target) : v ∈ x.vars := by
  cases x <;> simp [Expr.target] at h <;> (subst h; simp [Expr.vars])

omit [LawfulLinAlg] in
theorem targ_target {x : Expr ℝ} {c : ℕ} : c ∈ x.targ ↔ ∃ v ∈ x.target, c ∈ rng v.val v.size := by
  cases x <;> simp [Expr.target, Expr.targ]

omit [LawfulLinAlg] in
/-- adjoint cells whose variable element is assigned -/
theorem adj_of_targ {L : List (Expr ℝ)} {π : ℕ → ℕ} {V : Finset ℕ} (hπ : ∀ x ∈ L, x.Paired π) (hV : ∀ x ∈ L, x.adjCells ⊆ V)
    (hinj : Set.InjOn π V) {a : ℕ} (ha : a ∈ V) {x : Expr ℝ} (hx : x ∈ L) (h : π a ∈ x.targ) :
    ∃ v ∈ x.target, a ∈ rng v.adj v.size := by
  obtain ⟨v, hv, h⟩ := targ_target.1 h
  obtain ⟨k, hk, h⟩ := mem_rng_iff.1 h
  refine ⟨v, hv, ?_⟩
  rw [← hπ x hx v (target_vars hv) k hk] at h
  rw [hinj ha (hV x hx (mem_adjCells.2 ⟨v, target_vars hv, add_mem_rng hk⟩)) h]
  exact add_mem_rng hk

/-- The sum over the adjoint cells, provided the adjoints of the assigned variables start at zero. -/
theorem pull_zero {L : List (Expr ℝ)} (hwf : ∀ x ∈ L, x.WFStmt) {ρ : E → ℕ → ℝ} {x0 : E} {π : ℕ → ℕ} {V : Finset ℕ} {γ : ℕ → E →L[ℝ] ℝ}
    (hγ : ∀ c, HasFDerivAt (fun t => ρ t c) (γ c) x0) (hc : ∀ x ∈ L, ∀ c ∈ x.constCells, ∀ᶠ t in 𝓝 x0, ρ t c = ρ x0 c)
    (hct : ∀ x ∈ L, ∀ c ∈ x.constCells, ∀ y ∈ L, c ∉ y.targ)
    (hπ : ∀ x ∈ L, x.Paired π) (hV : ∀ x ∈ L, x.adjCells ⊆ V) (hinj : Set.InjOn π V) (ho : L.Pairwise UsedAfter)
    (hplace : ∀ x ∈ L, ∀ c ∈ x.place, γ c = 0) (hreg : RegSeq L ρ x0) :
    ∃ D : ℕ → E →L[ℝ] ℝ, (∀ k < sizeR L, HasFDerivAt (fun t => resultL L (ρ t) k) (D k) x0) ∧
      ∀ seed A, (∀ x ∈ L, ∀ v ∈ x.target, ∀ a ∈ rng v.adj v.size, A a = 0) →
        ∑ a ∈ V, (backL L (ρ x0) seed A a - A a) • γ (π a) = ∑ k ∈ Finset.range (sizeR L), seed k • D k := by
  obtain ⟨γ', D, h⟩ := pull_list L hwf hγ hc hct hπ hV hinj ho hplace hreg
  refine ⟨D, h.deriv, fun seed A hA => ?_⟩
  have h1 := h.pull seed A
  have h2 : ∑ a ∈ V, A a • γ' (π a) = ∑ a ∈ V, A a • γ (π a) := by
    refine Finset.sum_congr rfl fun a ha => ?_
    by_cases ht : ∃ x ∈ L, π a ∈ x.targ
    · obtain ⟨x, hx, ht⟩ := ht
      obtain ⟨v, hv, h⟩ := adj_of_targ hπ hV hinj ha hx ht
      rw [hA x hx v hv a h, zero_smul, zero_smul]
    · rw [h.off _ fun x hx hm => ht ⟨x, hx, hm⟩]
  rw [h2] at h1
  rw [Finset.sum_congr rfl fun a _ => sub_smul (backL L (ρ x0) seed A a) (A a) (γ (π a)), Finset.sum_sub_distrib, h1, add_sub_cancel_left]

/-- conditions on the leaves of a program, in terms of the whole program -/
structure ProgLeaves (p : Expr ℝ) (π : ℕ → ℕ) : Prop where
  paired : p.Paired π
  inj : Set.InjOn π p.adjCells
  const : ∀ c ∈ p.constCells, c ∉ p.targetCells

theorem prog_pull {p : Expr ℝ} (hp : p.Program) {π : ℕ → ℕ} (hl : ProgLeaves p π) {ρ : E → ℕ → ℝ} {x0 : E} {γ : ℕ → E →L[ℝ] ℝ}
    (hγ : ∀ c, HasFDerivAt (fun t => ρ t c) (γ c) x0) (hc : ∀ c ∈ p.constCells, ∀ᶠ t in 𝓝 x0, ρ t c = ρ x0 c)
    (hplace : ∀ c ∈ p.placeCells, γ c = 0) (hreg : RegSeq p.flat ρ x0) :
    ∃ D : ℕ → E →L[ℝ] ℝ, (∀ k < p.size, HasFDerivAt (fun t => p.result (ρ t) k) (D k) x0) ∧
      ∀ seed A, (∀ a ∈ p.targetAdj, A a = 0) →
        ∑ a ∈ p.adjCells, (backL p.flat (ρ x0) seed A a - A a) • γ (π a) = ∑ k ∈ Finset.range p.size, seed k • D k := by
  obtain ⟨f1, -, -⟩ := flat_spec p hp.tree
  have hcell : ∀ x ∈ p.flat, ∀ c ∈ x.constCells, c ∈ p.constCells := by
    intro x hx c hc
    obtain ⟨cv, hcv, h⟩ := mem_constCells.1 hc
    exact mem_constCells.2 ⟨cv, (f1 x hx).2.2 cv hcv, h⟩
  obtain ⟨D, h1, h2⟩ := pull_zero (L := p.flat) (fun x hx => (f1 x hx).1) hγ (fun x hx c hcc => hc c (hcell x hx c hcc))
    (fun x hx c hcc y hy h => hl.const c (hcell x hx c hcc) (mem_targetCells.2 ⟨y, hy, h⟩))
    (fun x hx v hv => hl.paired v ((f1 x hx).2.1 v hv))
    (V := p.adjCells) (fun x hx a ha => by
      obtain ⟨v, hv, h⟩ := mem_adjCells.1 ha
      exact mem_adjCells.2 ⟨v, (f1 x hx).2.1 v hv, h⟩)
    hl.inj hp.order (fun x hx c hcc => hplace c (mem_placeCells.2 ⟨x, hx, hcc⟩)) hreg
  rw [sizeR_flat hp.tree hp.nonempty] at h1 h2
  refine ⟨D, fun k hk => ?_, fun seed A hA => h2 seed A fun x hx v hv a ha => hA a (mem_targetAdj.2 ⟨x, hx, v, hv, ha⟩)⟩
  rw [show (fun t => p.result (ρ t) k) = fun t => resultL p.flat (ρ t) k from
    funext fun t => by rw [result_tree p hp.tree hp.nonempty]]
  exact h1 k hk

omit [LawfulLinAlg] in
theorem hasFDerivAt_shift (m u : ℕ → ℝ) (c : ℕ) :
    HasFDerivAt (fun t => shift m u t c) (ContinuousLinearMap.toSpanSingleton ℝ (u c)) 0 := by
  have : HasDerivAt (fun t : ℝ => m c + t * u c) (u c) 0 := by
    simpa using ((hasDerivAt_id (0:ℝ)).mul_const (u c)).const_add (m c)
  exact this.hasFDerivAt

omit [LawfulLinAlg] in
open Classical in
theorem hasFDerivAt_update (m : ℕ → ℝ) (b c : ℕ) :
    HasFDerivAt (fun t => Function.update m b t c) (ContinuousLinearMap.toSpanSingleton ℝ (if c = b then (1:ℝ) else 0)) (m b) := by
  refine HasDerivAt.hasFDerivAt ?_
  by_cases h : c = b
  · subst h
    simpa using hasDerivAt_id' (m c)
  · simpa [h] using hasDerivAt_const (m b) (m c)

theorem prog_directional {p : Expr ℝ} (hp : p.Program) {π : ℕ → ℕ} (hl : ProgLeaves p π) {m u : ℕ → ℝ}
    (hu : ∀ c ∈ p.constCells, u c = 0) (hu' : ∀ c ∈ p.placeCells, u c = 0) (hreg : RegSeq p.flat (shift m u) 0)
    (seed A : ℕ → ℝ) (hA : ∀ a ∈ p.targetAdj, A a = 0) :
    HasDerivAt (fun t => ∑ k ∈ Finset.range p.size, seed k * p.result (shift m u t) k)
      (∑ a ∈ p.adjCells, (backL p.flat m seed A a - A a) * u (π a)) 0 := by
  obtain ⟨D, hD, hP⟩ := prog_pull hp hl (hasFDerivAt_shift m u)
    (fun c hc => Filter.Eventually.of_forall fun t => by simp [shift, hu c hc])
    (fun c hc => by rw [hu' c hc]; simp) hreg
  have h1 : HasFDerivAt (fun t => ∑ k ∈ Finset.range p.size, seed k * p.result (shift m u t) k)
      (∑ k ∈ Finset.range p.size, seed k • D k) 0 := by
    refine HasFDerivAt.fun_sum fun k hk => ?_
    exact (hD k (Finset.mem_range.1 hk)).const_mul (seed k)
  rw [← hP seed A hA] at h1
  have h3 := h1.hasDerivAt
  rw [shift_zero] at h3
  convert h3 using 1
  simp [_root_.sum_apply, _root_.smul_apply]

theorem prog_partial {p : Expr ℝ} (hp : p.Program) {π : ℕ → ℕ} (hl : ProgLeaves p π) {m : ℕ → ℝ} {a : ℕ} (ha : a ∈ p.adjCells)
    (hc : π a ∉ p.constCells) (hpl : π a ∉ p.placeCells)
    (hreg : RegSeq p.flat (fun t => Function.update m (π a) t) (m (π a)))
    (seed A : ℕ → ℝ) (hA : ∀ a ∈ p.targetAdj, A a = 0) :
    HasDerivAt (fun t => ∑ k ∈ Finset.range p.size, seed k * p.result (Function.update m (π a) t) k)
      (backL p.flat m seed A a - A a) (m (π a)) := by
  classical
  obtain ⟨D, hD, hP⟩ := prog_pull hp hl (hasFDerivAt_update m (π a))
    (fun c hcc => Filter.Eventually.of_forall fun t => by
      have : c ≠ π a := fun h => hc (h ▸ hcc)
      simp [this])
    (fun c hcc => by
      have : c ≠ π a := fun h => hpl (h ▸ hcc)
      simp [this]) hreg
  have h1 : HasFDerivAt (fun t => ∑ k ∈ Finset.range p.size, seed k * p.result (Function.update m (π a) t) k)
      (∑ k ∈ Finset.range p.size, seed k • D k) (m (π a)) := by
    refine HasFDerivAt.fun_sum fun k hk => ?_
    exact (hD k (Finset.mem_range.1 hk)).const_mul (seed k)
  rw [← hP seed A hA] at h1
  have h3 := h1.hasDerivAt
  rw [Function.update_eq_self] at h3
  convert h3 using 1
  rw [_root_.sum_apply, Finset.sum_eq_single a]
  · simp [_root_.smul_apply]
  · intro b hb hne
    have : π b ≠ π a := fun h => hne (hl.inj hb ha h)
    simp [this]
  · intro h; exact absurd ha h

/-! ### Sensitivity of a placeholder -/

omit [LawfulLinAlg] in
theorem Expr.undo_off {x : Expr ℝ} {m h : ℕ → ℝ} {a : ℕ} (ha : a ∉ x.targ) : x.undo m h a = h a := by
  cases x with
  | opEq op v e w c =>
    simp only [Expr.undo]
    exact assign_off ha
  | _ => rfl

omit [LawfulLinAlg] in
theorem Expr.back_off {x : Expr ℝ} (hwf : x.WFStmt) {m seed A : ℕ → ℝ} {a : ℕ} (ha : a ∉ x.adjCells) : x.back m seed A a = A a := by
  have hsub : ∀ (v : View) (e y : Expr ℝ), y.vars = v :: e.vars → a ∉ y.adjCells → a ∉ rng v.adj v.size ∧ a ∉ e.readsA := by
    intro v e y h1 h2
    refine ⟨fun h => h2 (mem_adjCells.2 ⟨v, by rw [h1]; simp, h⟩), fun h => ?_⟩
    obtain ⟨u, hu, h⟩ := mem_adjCells.1 (readsA_cells e a h)
    exact h2 (mem_adjCells.2 ⟨u, by rw [h1]; simp [hu], h⟩)
  cases x with
  | eq v e w =>
    obtain ⟨h1, h2⟩ := hsub v e _ rfl ha
    simp only [Expr.back, if_neg h1, grad_support _ e _ a h2, add_zero]
  | opEq op v e w c =>
    obtain ⟨h1, h2⟩ := hsub v e _ rfl ha
    simp only [Expr.back, if_neg h1, grad_support _ e _ a h2, add_zero]
  | glue => exact hwf.elim
  | forEach => exact hwf.elim
  | _ =>
    show A a + _ = _
    rw [grad_support _ _ _ a fun h => ha (readsA_cells _ a h), add_zero]

omit [LawfulLinAlg] in
/-- the adjoints of cells not mentioned by the first statements -/
theorem backL_prefix {L1 L2 : List (Expr ℝ)} (hwf : ∀ x ∈ L1, x.WFStmt) (hne : L2 ≠ []) {m seed A : ℕ → ℝ} {a : ℕ}
    (ha : ∀ x ∈ L1, a ∉ x.adjCells) : backL (L1 ++ L2) m seed A a = backL L2 (execL L1 m) seed A a := by
  induction L1 generalizing m with
  | nil => rfl
  | cons x xs ih =>
    have h : (xs ++ L2).isEmpty = false := by cases xs <;> cases L2 <;> simp_all
    simp only [List.cons_append, backL, h, Bool.false_eq_true, if_false]
    rw [x.back_off (hwf x (by simp)) (ha x (by simp))]
    exact ih (fun y hy => hwf y (by simp [hy])) fun y hy => ha y (by simp [hy])

omit [LawfulLinAlg] in
theorem restL_prefix {L1 L2 : List (Expr ℝ)} {m : ℕ → ℝ} {a : ℕ} (ha : ∀ x ∈ L1, a ∉ x.targ) :
    restL (L1 ++ L2) m a = restL L2 (execL L1 m) a := by
  induction L1 generalizing m with
  | nil => rfl
  | cons x xs ih =>
    simp only [List.cons_append, restL]
    rw [Expr.undo_off (ha x (by simp))]
    exact ih fun y hy => ha y (by simp [hy])

end FastAD
