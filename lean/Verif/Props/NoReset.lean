import Verif.Proof.NoReset
import Verif.Proof.Benchmark

/-!
# Property C39, continued: loops over data without resets
-/

namespace FastAD

variable [HasInf ℝ] [LinAlg ℝ]

/-- **C39, what loops without resets compute.** For every program, every data set and every choice of adjoints `resets` that are reset in each round (also none): the loop is defined, the loss is the sum of the values over the rows, and the adjoints are those
of the exact rounds one after the other, each of which pulls back the adjoints, also those of the placeholders, which the rounds before have left.  This says what is computed where `C39_data_loop_partial` does not give the gradient of the loss. -/
theorem C39_without_resets [LawfulLinAlg] {p : Expr ℝ} {s s1 : St ℝ} {qv qa : ℕ} {jv ja : ℕ → ℝ} (hp : p.Program) (hal : p.Alive s.vok s.aok)
    (hf : Fresh s p.bindSize qv qa) (hl : Later (bindExpr p qv qa jv ja s).2 s1) (hst : p.Stable) (hsz : 0 < p.size) (seed : ℕ → ℝ) {resets : List ℕ}
    (hres : ∀ a ∈ resets, s.aok a = true) {rows : List (List (ℕ × ℝ))} (hrow : ∀ row ∈ rows, ∀ w ∈ row, s.vok w.1 = true) (loss : ℝ) :
    ∃ s', dataLoop (bindExpr p qv qa jv ja s).1 seed resets rows loss s1 = some (s', loss + total (fun m => p.result m 0) s1.val rows) ∧
      ∀ π, p.Paired π → Set.InjOn π p.adjCells → (∀ c ∈ p.constCells, c ∉ p.targetCells) → RoundsOf p π seed s.vok resets (rowStores s1.val rows) s1.adj s'.adj := by
  obtain ⟨s', h, hok⟩ := dataLoop_rounds (jv := jv) (ja := ja) hp hal hf hst hsz seed resets hres rows loss hl hrow fun _ _ _ => rfl
  exact ⟨s', h, fun π h1 h2 h3 => hok π ⟨h1, h2, h3⟩⟩

namespace NoResetSample

open Benchmark

/-- `w4 = x * x` (an iterated sum with one element), `w5 = w4 * w4 + sin(w4)` with `x` at 0, `w4` at 1, `w5` at 2 -/
noncomputable def p : Expr ℝ := .mkGlue (sumStmt 1 0) (outStmt .sin 1 0)

/-- x = 3; all adjoints zero -/
def s : St ℝ := ⟨fun a => if a = 0 then 3 else 0, fun _ => 0, fun a => decide (a < 3), fun a => decide (a < 3)⟩

/-- two rounds without resets: the adjoint of the result is 2 -/
example [LawfulLinAlg] (jv ja : ℕ → ℝ) : ∃ s', dataLoop (bindExpr p 10 10 jv ja s).1 1 [] [[(0, 3)], [(0, 1)]] 0 (bindExpr p 10 10 jv ja s).2 = some (s', (81 + Real.sin 9) + (1 + Real.sin 1)) ∧ s'.adj 2 = 2 := by
  have hok : ∀ k < 1 + 2, s.vok (0 + k) = true ∧ s.aok (0 + k) = true := fun k hk => by simp [s]; omega
  obtain ⟨s', h1, h2⟩ := C39_without_resets (p := p) (s := s) (qv := 10) (qa := 10) (jv := jv) (ja := ja) sum_program (sum_alive hok) ⟨fun k _ => by simp [s]; omega, fun k _ => by simp [s]; omega⟩ ⟨fun _ h => h, fun _ h => h⟩
    (.inl rfl) one_pos 1 (resets := []) (by simp) (rows := [[(0, 3)], [(0, 1)]]) (by simp [s]) 0
  refine ⟨s', ?_, ?_⟩
  · rw [h1]
    have e : ∀ m : ℕ → ℝ, p.result m 0 = m 0 * m 0 * (m 0 * m 0) + Real.sin (m 0 * m 0) := fun m => by
      rw [p, sum_result, sum_exec]
      simp
    simp [total, rowStores, overlay, e]
    norm_num
  · have h3 := h2 id (fun v hv k hk => by
        have : v = Readme.sclVar 0 0 ∨ v = Readme.sclVar 1 1 ∨ v = Readme.sclVar 2 2 := by
          simp [p, sumStmt, outStmt, squares, Expr.mkGlue, Expr.mkEq, Expr.mkSumIter, Expr.mkBinary, Expr.mkUnary, Expr.vars, Exprs.varss, Exprs.ofList, or_assoc] at hv
          tauto
        rcases this with rfl | rfl | rfl <;> rfl) (Set.injOn_id _) (fun c hc => by
        simp [p, sumStmt, outStmt, squares, Expr.mkGlue, Expr.mkEq, Expr.mkSumIter, Expr.mkBinary, Expr.mkUnary, Expr.constCells, Expr.cviews, Exprs.cviewss, Exprs.ofList] at hc)
    have hL : p.flat = [sumStmt 1 0] ++ outStmt .sin 1 0 :: [] := rfl
    rcases h3 with _ | ⟨-, r1, _ | ⟨-, r2, ⟨⟩⟩⟩
    have a1 := (r1.ofPlaceholder _ _ _ _ _ hL 0 (by decide)).1 rfl
    have a2 := (r2.ofPlaceholder _ _ _ _ _ hL 0 (by decide)).1 rfl
    simp [Readme.sclVar, addr] at a1 a2
    rw [a2, a1]
    simp [bindExpr, St.allocate, fillRange, s]
    norm_num

end NoResetSample

end FastAD
