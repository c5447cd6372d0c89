import Verif.Proof.Storage
import Verif.Spec.Params

/-!
# A contiguous vector of parameters
-/

open scoped Topology

namespace FastAD

/-! ### Layout -/

theorem bindViews_spec (shs : List Shape) : ∀ qv qa,
    (bindViews shs ⟨some qv, some qa⟩).2 = ⟨some (qv + (shs.map Shape.size).sum), some (qa + (shs.map Shape.size).sum)⟩ ∧
    (bindViews shs ⟨some qv, some qa⟩).1.map View.shape = shs ∧
    ∀ i v, (bindViews shs ⟨some qv, some qa⟩).1[i]? = some v → i < shs.length ∧
      v.val = some (qv + ((shs.take i).map Shape.size).sum) ∧ v.adj = some (qa + ((shs.take i).map Shape.size).sum) ∧
      ((shs.take i).map Shape.size).sum + v.size ≤ (shs.map Shape.size).sum := by
  induction shs with
  | nil => intro qv qa; refine ⟨rfl, rfl, fun i v h => ?_⟩; simp [bindViews] at h
  | cons sh shs ih =>
    intro qv qa
    obtain ⟨h1, h2, h3⟩ := ih (qv + sh.size) (qa + sh.size)
    have e : bindViews (sh :: shs) ⟨some qv, some qa⟩ =
        (⟨sh, some qv, some qa⟩ :: (bindViews shs ⟨some (qv + sh.size), some (qa + sh.size)⟩).1,
          (bindViews shs ⟨some (qv + sh.size), some (qa + sh.size)⟩).2) := rfl
    rw [e]
    refine ⟨?_, ?_, fun i v h => ?_⟩
    · rw [h1]; simp [Nat.add_assoc]
    · simp [h2]
    · cases i with
      | zero =>
        simp at h
        subst h
        simp [View.size]
      | succ i =>
        simp only [List.getElem?_cons_succ] at h
        obtain ⟨i1, i2, i3, i4⟩ := h3 i v h
        simp only [List.take_succ_cons, List.map_cons, List.sum_cons, List.length_cons]
        exact ⟨by omega, by rw [i2, Nat.add_assoc], by rw [i3, Nat.add_assoc], by omega⟩

/-- every cell of the block belongs to one view -/
theorem bindViews_cover (shs : List Shape) : ∀ qv qa o, o < (shs.map Shape.size).sum →
    ∃ (i : ℕ) (v : View) (k : ℕ), (bindViews shs ⟨some qv, some qa⟩).1[i]? = some v ∧ k < v.size ∧ addr v.val + k = qv + o ∧ addr v.adj + k = qa + o := by
  induction shs with
  | nil => intro qv qa o h; simp at h
  | cons sh shs ih =>
    intro qv qa o h
    have e : bindViews (sh :: shs) ⟨some qv, some qa⟩ =
        (⟨sh, some qv, some qa⟩ :: (bindViews shs ⟨some (qv + sh.size), some (qa + sh.size)⟩).1,
          (bindViews shs ⟨some (qv + sh.size), some (qa + sh.size)⟩).2) := rfl
    rw [e]
    by_cases ho : o < sh.size
    · exact ⟨0, _, o, rfl, ho, rfl, rfl⟩
    · simp only [List.map_cons, List.sum_cons] at h
      obtain ⟨i, v, k, h1, h2, h3, h4⟩ := ih (qv + sh.size) (qa + sh.size) (o - sh.size) (by omega)
      exact ⟨i + 1, v, k, h1, h2, by omega, by omega⟩

/-- different views do not overlap -/
theorem bindViews_disjoint {shs : List Shape} {qv qa i j k l : ℕ} {v w : View} (hi : (bindViews shs ⟨some qv, some qa⟩).1[i]? = some v)
    (hj : (bindViews shs ⟨some qv, some qa⟩).1[j]? = some w) (hk : k < v.size) (hl : l < w.size) (h : addr v.val + k = addr w.val + l) : i = j ∧ k = l := by
  have key : ∀ {i j k l : ℕ} {v w : View}, (bindViews shs ⟨some qv, some qa⟩).1[i]? = some v →
      (bindViews shs ⟨some qv, some qa⟩).1[j]? = some w → k < v.size → i < j → addr v.val + k < addr w.val + l := by
    intro i j k l v w hi hj hk hij
    obtain ⟨-, hshape, hview⟩ := bindViews_spec shs qv qa
    obtain ⟨i1, i2, -, -⟩ := hview i v hi
    obtain ⟨j1, j2, -, -⟩ := hview j w hj
    have hsh : shs[i]? = some v.shape := by rw [← hshape, List.getElem?_map, hi]; rfl
    have h1 : ((shs.take (i + 1)).map Shape.size).sum = ((shs.take i).map Shape.size).sum + v.size := by
      rw [List.take_add_one, hsh]
      simp [View.size]
    have h2 : ((shs.take (i + 1)).map Shape.size).sum ≤ ((shs.take j).map Shape.size).sum := by
      have : shs.take (i + 1) = (shs.take j).take (i + 1) := by rw [List.take_take, Nat.min_eq_left (by omega)]
      rw [this]
      conv_rhs => rw [← List.take_append_drop (i + 1) (shs.take j)]
      rw [List.map_append, List.sum_append]
      exact Nat.le_add_right _ _
    rw [i2, j2, addr_some, addr_some]
    omega
  rcases Nat.lt_trichotomy i j with hij | rfl | hij
  · have := key (l := l) hi hj hk hij; omega
  · rw [hi] at hj; cases hj
    exact ⟨rfl, by omega⟩
  · have := key (l := k) hj hi hl hij; omega

/-! ### The gradient -/

section
variable {N : ℕ}

theorem withParams_in {m : ℕ → ℝ} {qv : ℕ} (θ : Fin N → ℝ) (i : Fin N) : withParams m qv θ (qv + i) = θ i := by
  have h : qv ≤ qv + (i : ℕ) ∧ qv + (i : ℕ) < qv + N := ⟨by omega, by omega⟩
  simp [withParams]

theorem withParams_out {m : ℕ → ℝ} {qv c : ℕ} (θ : Fin N → ℝ) (h : ¬ (qv ≤ c ∧ c < qv + N)) : withParams m qv θ c = m c := dif_neg h

theorem withParams_self {m : ℕ → ℝ} {qv : ℕ} : withParams m qv (fun i : Fin N => m (qv + i)) = m := by
  funext c
  simp only [withParams]
  split
  · rename_i h; congr 1; omega
  · rfl

/-- derivative of the memory with respect to the parameters -/
noncomputable def dParams (N qv c : ℕ) : (Fin N → ℝ) →L[ℝ] ℝ := if h : qv ≤ c ∧ c < qv + N then ContinuousLinearMap.proj ⟨c - qv, by omega⟩ else 0

theorem dParams_in {qv : ℕ} (i : Fin N) : dParams N qv (qv + i) = ContinuousLinearMap.proj i := by
  simp [dParams]

theorem hasFDerivAt_withParams (m : ℕ → ℝ) (qv c : ℕ) (θ : Fin N → ℝ) :
    HasFDerivAt (fun θ : Fin N → ℝ => withParams m qv θ c) (dParams N qv c) θ := by
  simp only [withParams, dParams]
  split
  · exact hasFDerivAt_apply _ _
  · exact hasFDerivAt_const _ _

variable [HasInf ℝ] [LinAlg ℝ] [LawfulLinAlg]
variable {p : Expr ℝ} {qv qa wv wa M : ℕ}

omit [HasInf ℝ] [LinAlg ℝ] [LawfulLinAlg] in
/-- which value cell an adjoint cell belongs to -/
theorem Expr.Params.leaves (h : p.Params qv qa N wv wa M) :
    ProgLeaves p fun a => if qa ≤ a ∧ a < qa + N then a - qa + qv else a - wa + wv := by
  have hcell : ∀ a ∈ p.adjCells, (qa ≤ a ∧ a < qa + N) ∨ (wa ≤ a ∧ a < wa + M) := by
    intro a ha
    obtain ⟨v, hv, h1⟩ := mem_adjCells.1 ha
    obtain ⟨k, hk, rfl⟩ := mem_rng_iff.1 h1
    rcases h.vars v hv with hb | hb
    · obtain ⟨o, ho, -, h2⟩ := hb k hk; omega
    · obtain ⟨o, ho, -, h2⟩ := hb k hk; omega
  refine ⟨fun v hv k hk => ?_, fun a ha b hb hab => ?_, fun c hc => (h.const c hc).2⟩
  · rcases h.vars v hv with hb | hb
    · obtain ⟨o, ho, h1, h2⟩ := hb k hk
      simp only [h1, h2]
      rw [if_pos (by omega)]
      omega
    · obtain ⟨o, ho, h1, h2⟩ := hb k hk
      simp only [h1, h2]
      rw [if_neg fun hc => h.disjA (wa + o - qa) (by omega) o ho (by omega)]
      omega
  · have key : ∀ a b, (qa ≤ a ∧ a < qa + N) → (wa ≤ b ∧ b < wa + M) → a - qa + qv ≠ b - wa + wv := by
      intro a b ha hb hab
      exact h.disjV (a - qa) (by omega) (b - wa) (by omega) (by omega)
    change (if qa ≤ a ∧ a < qa + N then a - qa + qv else a - wa + wv) = (if qa ≤ b ∧ b < qa + N then b - qa + qv else b - wa + wv) at hab
    rcases hcell a ha with h1 | h1 <;> rcases hcell b hb with h2 | h2
    · rw [if_pos h1, if_pos h2] at hab; omega
    · have h3 : ¬ (qa ≤ b ∧ b < qa + N) := fun hc => h.disjA (b - qa) (by omega) (b - wa) (by omega) (by omega)
      rw [if_pos h1, if_neg h3] at hab
      exact absurd hab (key a b h1 h2)
    · have h3 : ¬ (qa ≤ a ∧ a < qa + N) := fun hc => h.disjA (a - qa) (by omega) (a - wa) (by omega) (by omega)
      rw [if_neg h3, if_pos h2] at hab
      exact absurd hab.symm (key b a h2 h1)
    · have h3 : ¬ (qa ≤ a ∧ a < qa + N) := fun hc => h.disjA (a - qa) (by omega) (a - wa) (by omega) (by omega)
      have h4 : ¬ (qa ≤ b ∧ b < qa + N) := fun hc => h.disjA (b - qa) (by omega) (b - wa) (by omega) (by omega)
      rw [if_neg h3, if_neg h4] at hab
      omega

theorem params_gradient (hp : p.Program) (h : p.Params qv qa N wv wa M) {m : ℕ → ℝ}
    (hreg : RegSeq p.flat (fun θ : Fin N → ℝ => withParams m qv θ) fun i => m (qv + i)) (seed A : ℕ → ℝ) (hA : ∀ a ∈ p.targetAdj, A a = 0) :
    HasFDerivAt (fun θ : Fin N → ℝ => ∑ k ∈ Finset.range p.size, seed k * p.result (withParams m qv θ) k)
      (∑ i : Fin N, (backL p.flat m seed A (qa + i) - A (qa + i)) • ContinuousLinearMap.proj (R := ℝ) (φ := fun _ : Fin N => ℝ) i) fun i => m (qv + i) := by
  classical
  have hpl : ∀ c ∈ p.placeCells, dParams N qv c = 0 := by
    intro c hc
    obtain ⟨x, hx, hcx⟩ := mem_placeCells.1 hc
    refine dif_neg fun hr => ?_
    cases x with
    | eq v e w =>
      obtain ⟨k, hk, rfl⟩ := mem_rng_iff.1 hcx
      obtain ⟨o, ho, h1, -⟩ := h.place _ hx v rfl k hk
      exact h.disjV (addr v.val + k - qv) (by omega) o ho (by omega)
    | _ => exact hcx.elim
  obtain ⟨D, hD, hP⟩ := prog_pull hp h.leaves (fun c => hasFDerivAt_withParams m qv c fun i : Fin N => m (qv + i))
    (fun c hc => Filter.Eventually.of_forall fun θ => by rw [withParams_out _ (h.const c hc).1, withParams_out _ (h.const c hc).1]) hpl hreg
  have h1 : HasFDerivAt (fun θ : Fin N → ℝ => ∑ k ∈ Finset.range p.size, seed k * p.result (withParams m qv θ) k)
      (∑ k ∈ Finset.range p.size, seed k • D k) fun i => m (qv + i) :=
    HasFDerivAt.fun_sum fun k hk => (hD k (Finset.mem_range.1 hk)).const_mul (seed k)
  rw [← hP seed A hA, withParams_self] at h1
  refine h1.congr_fderiv ?_
  symm
  set F : ℕ → (Fin N → ℝ) →L[ℝ] ℝ := fun a => (backL p.flat m seed A a - A a) •
    dParams N qv (if qa ≤ a ∧ a < qa + N then a - qa + qv else a - wa + wv) with hF
  have hin : ∀ i : Fin N, F (qa + i) = (backL p.flat m seed A (qa + i) - A (qa + i)) • ContinuousLinearMap.proj (R := ℝ) (φ := fun _ : Fin N => ℝ) i := by
    intro i
    simp only [hF]
    rw [if_pos ⟨by omega, by omega⟩, show qa + (i : ℕ) - qa + qv = qv + i by omega, dParams_in]
  rw [← Finset.sum_congr rfl fun i _ => hin i]
  have himg : ∑ i : Fin N, F (qa + i) = ∑ a ∈ Finset.univ.image (fun i : Fin N => qa + (i : ℕ)), F a := by
    rw [Finset.sum_image]
    intro i _ j _ hij
    exact Fin.ext (by simpa using hij)
  rw [himg]
  trans ∑ a ∈ p.adjCells ∪ Finset.univ.image (fun i : Fin N => qa + (i : ℕ)), F a
  · refine Finset.sum_subset Finset.subset_union_right fun a ha hna => ?_
    rcases Finset.mem_union.1 ha with ha | ha
    · obtain ⟨v, hv, h1⟩ := mem_adjCells.1 ha
      obtain ⟨k, hk, rfl⟩ := mem_rng_iff.1 h1
      rcases h.vars v hv with hb | hb
      · obtain ⟨o, ho, -, h2⟩ := hb k hk
        exact absurd (Finset.mem_image.2 ⟨⟨o, ho⟩, Finset.mem_univ _, h2.symm⟩) hna
      · obtain ⟨o, ho, -, h2⟩ := hb k hk
        simp only [hF, h2]
        rw [if_neg fun hc => h.disjA (wa + o - qa) (by omega) o ho (by omega), dParams, dif_neg, smul_zero]
        intro hc
        exact h.disjV (wa + o - wa + wv - qv) (by omega) o ho (by omega)
    · exact absurd ha hna
  · refine (Finset.sum_subset Finset.subset_union_left fun a _ hna => ?_).symm
    simp only [hF]
    rw [backL_off (fun x hx => ((flat_spec p hp.tree).1 x hx).1) fun x hx hc => hna ?_, sub_self, zero_smul]
    obtain ⟨v, hv, hc⟩ := mem_adjCells.1 hc
    exact mem_adjCells.2 ⟨v, ((flat_spec p hp.tree).1 x hx).2.1 v hv, hc⟩

end

end FastAD
