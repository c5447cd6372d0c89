import Verif.Proof.Loop
import Verif.Proof.Params

/-!
# Loops over data: the gradient as a vector
-/

namespace FastAD

variable [HasInf ℝ] [LinAlg ℝ]
set_option linter.unusedSectionVars false

section
variable {N : ℕ}

theorem overlay_withParams {row : List (ℕ × ℝ)} : ∀ {m : ℕ → ℝ} {qv : ℕ} {θ : Fin N → ℝ}, (∀ w ∈ row, ¬ (qv ≤ w.1 ∧ w.1 < qv + N)) →
    overlay (withParams m qv θ) row = withParams (overlay m row) qv θ := by
  induction row with
  | nil => intros; rfl
  | cons w row ih =>
    intro m qv θ h
    show overlay (Function.update (withParams m qv θ) w.1 w.2) row = withParams (overlay (Function.update m w.1 w.2) row) qv θ
    rw [← ih fun w' hw => h w' (by simp [hw])]
    congr 1
    funext c
    simp only [Function.update_apply, withParams]
    by_cases hc : c = w.1
    · subst hc
      rw [if_pos rfl, dif_neg (h w (by simp)), if_pos rfl]
    · rw [if_neg hc, if_neg hc]

theorem rowStores_withParams {rows : List (List (ℕ × ℝ))} : ∀ {m : ℕ → ℝ} {qv : ℕ} {θ : Fin N → ℝ}, (∀ row ∈ rows, ∀ w ∈ row, ¬ (qv ≤ w.1 ∧ w.1 < qv + N)) →
    rowStores (withParams m qv θ) rows = (rowStores m rows).map fun m => withParams m qv θ := by
  induction rows with
  | nil => intros; rfl
  | cons row rows ih =>
    intro m qv θ h
    simp only [rowStores, List.map_cons]
    rw [overlay_withParams (h row (by simp)), ih fun r hr => h r (by simp [hr])]

end

/-- What the loop does to the memory, seen from the exact stores `m`. -/
structure GradOk (p : Expr ℝ) (UV UA : Set ℕ) (qv qa N : ℕ) (s1 s' : St ℝ) (m seed : ℕ → ℝ) (resets : List ℕ) (rows : List (List (ℕ × ℝ))) : Prop where
  vok : s'.vok = s1.vok
  aok : s'.aok = s1.aok
  val : ∀ c ∈ UV, c ∉ p.placeCells → s'.val c = rows.foldl overlay m c
  adj : ∀ a ∈ UA, a ∉ p.adjCells → a ∉ resets → s'.adj a = s1.adj a
  grad : HasFDerivAt (fun θ : Fin N → ℝ => total (fun m' => ∑ k ∈ Finset.range p.size, seed k * p.result m' k) (withParams m qv θ) rows)
    (∑ i : Fin N, (s'.adj (qa + i) - s1.adj (qa + i)) • ContinuousLinearMap.proj (R := ℝ) (φ := fun _ : Fin N => ℝ) i) fun i => m (qv + i)

theorem dataLoop_params [LawfulLinAlg] {p : Expr ℝ} {b : Pack} {UV UA : Set ℕ} {vok aok : ℕ → Bool} {qv qa N wv wa M : ℕ} (hp : p.Program)
    (hw : p.Within UV UA vok aok) (hr : p.Room b UV UA vok aok) (hpar : p.Params qv qa N wv wa M) (hV : ∀ i < N, qv + i ∈ UV) (hU : ∀ i < N, qa + i ∈ UA)
    (hst : p.Stable) (hsz : 0 < p.size) (seed : ℕ → ℝ) {resets : List ℕ} (hres : ∀ a ∈ resets, aok a = true) (htr : ∀ a ∈ p.targetAdj, a ∈ resets)
    (hnr : ∀ i < N, qa + i ∉ resets) (rows : List (List (ℕ × ℝ))) :
    ∀ {s1 : St ℝ} {m : ℕ → ℝ} (loss : ℝ), s1.vok = vok → s1.aok = aok →
      (∀ row ∈ rows, ∀ w ∈ row, vok w.1 = true ∧ ¬ (qv ≤ w.1 ∧ w.1 < qv + N)) →
      (∀ c ∈ UV, c ∉ p.placeCells → s1.val c = m c) →
      (∀ m' ∈ rowStores m rows, RegSeq p.flat (fun θ : Fin N → ℝ => withParams m' qv θ) fun i => m' (qv + i)) →
      ∃ s', dataLoop (p.bind b).1 seed resets rows loss s1 = some (s', loss + total (fun m' => p.result m' 0) m rows) ∧
        GradOk p UV UA qv qa N s1 s' m seed resets rows := by
  have hplace : ∀ i < N, qv + i ∉ p.placeCells := by
    intro i hi hc
    obtain ⟨x, hx, hcx⟩ := mem_placeCells.1 hc
    cases x with
    | eq v e w =>
      obtain ⟨k, hk, h0⟩ := mem_rng_iff.1 hcx
      obtain ⟨o, ho, h1, -⟩ := hpar.place _ hx v rfl k hk
      exact hpar.disjV i hi o ho (by omega)
    | _ => exact hcx.elim
  induction rows with
  | nil =>
    intro s1 m loss _ _ _ hag _
    refine ⟨s1, by simp [dataLoop, total, rowStores], rfl, rfl, hag, fun _ _ _ _ => rfl, ?_⟩
    simpa [total, rowStores] using hasFDerivAt_const (0 : ℝ) fun i : Fin N => m (qv + i)
  | cons row rows ih =>
    intro s1 m loss hvok haok hrow hag hreg
    have h1 := store_spec (s := s1) row fun w hw => by rw [hvok]; exact (hrow row (by simp) w hw).1
    have h2 := resetAdj_spec (s := { s1 with val := overlay s1.val row }) resets fun a ha => by
      show s1.aok a = true
      rw [haok]; exact hres a ha
    let sa : St ℝ := ⟨overlay s1.val row, fun a => if a ∈ resets then 0 else s1.adj a, s1.vok, s1.aok⟩
    have hag2 : ∀ c ∈ UV, c ∉ p.placeCells → sa.val c = overlay m row c := fun c hc hcp => overlay_congr (hag c hc hcp)
    have hfree : ∀ c ∈ (p.valCells ∪ p.constCells) \ p.placeCells, sa.val c = overlay m row c := by
      intro c hc
      obtain ⟨hc1, hc2⟩ := Finset.mem_sdiff.1 hc
      exact hag2 c (hw.val c hc1) hc2
    have hwa : p.Within UV UA sa.vok sa.aok := by
      show p.Within UV UA s1.vok s1.aok
      rw [hvok, haok]; exact hw
    have hra : p.Room b UV UA sa.vok sa.aok := by
      show p.Room b UV UA s1.vok s1.aok
      rw [hvok, haok]; exact hr
    obtain ⟨s2, r, e1, e2, e3, e4, e5, e6⟩ := storage_step hp hwa hra seed
    have hsize : (p.bind b).1.size = p.size := congrArg Shape.size (Expr.shape_of_strip (bind_strip p b))
    have hread := read_one hsz (hsize ▸ e4 hst)
    have hag3 : ∀ c ∈ UV, c ∉ p.placeCells → s2.val c = overlay m row c := by
      intro c hc hcp
      rw [e5 c (hra.offRng.1 c hc), prog_restore hp hcp]
      exact hag2 c hc hcp
    have hpar2 : ∀ i : Fin N, overlay m row (qv + i) = m (qv + i) := fun i =>
      overlay_apply_of_notMem fun w hw hc => (hrow row (by simp) w hw).2 (by omega)
    obtain ⟨s', hrun, hok⟩ := ih (s1 := s2) (m := overlay m row) (loss + p.result (overlay m row) 0) (e2.trans hvok) (e3.trans haok) (fun r hr => hrow r (by simp [hr])) hag3
      fun m' hm' => hreg m' (by simp [rowStores, hm'])
    refine ⟨s', ?_, ?_⟩
    · have hrun0 : autodiff (p.bind b).1 seed ⟨overlay s1.val row, fun a => if a ∈ resets then 0 else s1.adj a, s1.vok, s1.aok⟩ = some (s2, r) := e1
      simp only [dataLoop, h1, h2, hrun0, hread, Option.bind_eq_bind, Option.bind_some]
      have : trunc 1 (p.result sa.val) 0 = p.result (overlay m row) 0 := by
        rw [trunc_of_lt Nat.one_pos]
        exact result_congr hp hfree 0 hsz
      rw [this, hrun]
      simp [total, rowStores, add_assoc]
    · refine ⟨hok.vok.trans e2, hok.aok.trans e3, hok.val, fun a ha hna hnr' => ?_, ?_⟩
      · rw [hok.adj a ha hna hnr', e6 a (hra.offRng.2 a ha), backL_off (fun x hx => ((flat_spec p hp.tree).1 x hx).1) fun x hx hc => hna ?_]
        · exact if_neg hnr'
        · obtain ⟨v, hv, hc⟩ := mem_adjCells.1 hc
          exact mem_adjCells.2 ⟨v, ((flat_spec p hp.tree).1 x hx).2.1 v hv, hc⟩
      have hupd : ∀ θ : Fin N → ℝ, ∀ c ∈ (p.valCells ∪ p.constCells) \ p.placeCells, withParams (overlay m row) qv θ c = withParams sa.val qv θ c := by
        intro θ c hc
        simp only [withParams]
        split
        · rfl
        · exact (hfree c hc).symm
      have hsa : (fun i : Fin N => sa.val (qv + i)) = fun i : Fin N => m (qv + i) := by
        funext i
        rw [hag2 _ (hV i i.2) (hplace i i.2), hpar2]
      have hreg1 : RegSeq p.flat (fun θ : Fin N → ℝ => withParams sa.val qv θ) fun i => sa.val (qv + i) := by
        have := hreg (overlay m row) (by simp [rowStores])
        rw [hsa]
        simp only [hpar2] at this
        exact reg_program_congr hp hupd this
      have g1 := params_gradient hp hpar hreg1 seed sa.adj fun a ha => by simp [sa, htr a ha]
      rw [hsa] at g1
      have g2 := hok.grad
      simp only [hpar2] at g2
      refine ((g1.add g2).congr_fderiv ?_).congr_of_eventuallyEq (.of_forall fun θ => ?_)
      · rw [← Finset.sum_add_distrib]
        refine Finset.sum_congr rfl fun i _ => ?_
        rw [← add_smul, ← e6 (qa + i) (hra.offRng.2 _ (hU i i.2)), show sa.adj (qa + i) = s1.adj (qa + i) from if_neg (hnr i i.2)]
        congr 1
        ring
      · simp only [total, rowStores, List.map_cons, List.sum_cons, Pi.add_apply]
        rw [overlay_withParams fun w hw => (hrow row (by simp) w hw).2]
        congr 1
        exact Finset.sum_congr rfl fun k hk => by rw [result_congr hp (hupd θ) k (Finset.mem_range.1 hk)]

end FastAD
