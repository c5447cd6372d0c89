import Verif.Proof.RelateProg
import Verif.Proof.Converge
import Verif.Proof.ProgApi

/-!
# Programs in more and more precise arithmetics
-/

open Filter Topology

namespace FastAD

set_option linter.unusedSectionVars false

variable [HasInf ℝ] [LinAlg ℝ] {ι : Type} {φ : Filter ι}

theorem AOp.arith_real (op : AOp) (x y : ℝ) : op.arith x y = op.real x y := by cases op <;> rfl

/-- executing a statement with real arithmetic is its mathematical meaning -/
theorem exactStmt_real {x : Expr ℝ} {D : Doms ℝ} {m : ℕ → ℝ} (hx : x.WFStmt) (hi : x.InsideStmt D m) : x.exactResult m = x.result m ∧ x.exactExec m = x.exec m := by
  by_cases hs : x.isStmt = false
  · have hp := WFStmt_pure hs hx
    have key : x.Inside D m → x.exact m = x.denote m := fun hi => exact_eq_denote hp.1 hi
    cases x <;> first | exact ⟨key hi, rfl⟩ | exact hx.elim | simp [Expr.isStmt] at hs
  · cases x with
    | eq v e w =>
      have h := exact_eq_denote hx.1 hi
      refine ⟨h, ?_⟩
      show assign m v (fun k => e.exact m k) = assign m v (e.denote m)
      rw [h]
    | opEq op v e w c =>
      have h := exact_eq_denote hx.1 hi.1
      have h' : (Expr.opEq op v e w c).exactResult m = (Expr.opEq op v e w c).result m := by
        funext k
        simp only [Expr.exactResult, Expr.result, h, AOp.arith_real]
      refine ⟨h', ?_⟩
      show assign m v ((Expr.opEq op v e w c).exactResult m) = _
      rw [h']
      rfl
    | glue => exact hx.elim
    | forEach => exact hx.elim
    | _ => simp [Expr.isStmt] at hs

theorem exactL_real {D : Doms ℝ} : ∀ (L : List (Expr ℝ)) (m : ℕ → ℝ), (∀ x ∈ L, x.WFStmt) → InsideSeq D L m → exactResultL L m = resultL L m ∧ exactExecL L m = execL L m
  | [], _, _, _ => ⟨rfl, rfl⟩
  | [x], m, hw, hi => exactStmt_real (hw x (by simp)) hi.1
  | x :: y :: ys, m, hw, hi => by
    have h1 := exactStmt_real (hw x (by simp)) hi.1
    have h2 := exactL_real (y :: ys) (x.exactExec m) (fun z hz => hw z (by simp [hz])) hi.2
    rw [h1.2] at h2
    refine ⟨?_, ?_⟩
    · rw [exactResultL, resultL, h1.2]; exact h2.1
    · rw [exactExecL, execL, h1.2]; exact h2.2

omit [HasInf ℝ] [LinAlg ℝ] in
theorem list_map_id (L : List (Expr ℝ)) : L.map (Expr.map fun x => x) = L := by
  rw [show (Expr.map fun x => x : Expr ℝ → Expr ℝ) = id from funext fun e => map_id e, List.map_id]

theorem needOk_univ : ∀ L : List (Expr ℝ), NeedOk Set.univ L
  | [] => trivial
  | x :: xs => ⟨fun _ _ => trivial, by rw [Set.univ_union]; exact needOk_univ xs⟩

theorem insideSeq_near {L : List (Expr ℝ)} {m : ℕ → ℝ} {ρ : ι → ℕ → ℝ} (hwf : ∀ x ∈ L, x.WFStmt) (hi : InsideSeq realDoms L m) (hρ : ∀ a, Tendsto (fun x => ρ x a) φ (𝓝 (m a))) :
    ∀ᶠ x in φ, InsideSeq realDoms L (ρ x) := by
  have := related_insideSeq (fun x => x) (fun _ x => x) (faithful_real φ).related (fun c => tendsto_const_nhds) domsTo_real L Set.univ m ρ hwf (needOk_univ L)
    (by rwa [list_map_id]) fun a _ => hρ a
  simpa only [list_map_id] using this

theorem exec_tendsto {x : Expr ℝ} {m : ℕ → ℝ} {ρ : ι → ℕ → ℝ} (hx : x.WFStmt) (hi : x.InsideStmt realDoms m) (hρ : ∀ a, Tendsto (fun t => ρ t a) φ (𝓝 (m a))) (a : ℕ) :
    Tendsto (fun t => x.exec (ρ t) a) φ (𝓝 (x.exec m a)) := by
  have h1 := related_exec (fun x => x) (fun (_ : ι) x => x) (faithful_real φ).related (fun c => tendsto_const_nhds) (m := m) (m' := ρ) hx (by rwa [map_id]) (K := Set.univ)
    (fun _ _ => trivial) (fun a _ => hρ a) a (Or.inl trivial)
  have h2 := related_insideStmt (fun x => x) (fun (_ : ι) x => x) (faithful_real φ).related (fun c => tendsto_const_nhds) domsTo_real (m := m) (m' := ρ) hx (by rwa [map_id]) fun a _ => hρ a
  simp only [map_id] at h1 h2
  rw [(exactStmt_real hx hi).2] at h1
  exact Tendsto.congr' (h2.mono fun t ht => by beta_reduce; rw [(exactStmt_real hx ht).2]) h1

/-- inside the domains a program is differentiable -/
theorem insideSeq_reg {E : Type} [NormedAddCommGroup E] [NormedSpace ℝ E] {x0 : E} : ∀ (L : List (Expr ℝ)) (ρ : E → ℕ → ℝ), (∀ x ∈ L, x.WFStmt) →
    (∀ a, Tendsto (fun x => ρ x a) (𝓝 x0) (𝓝 (ρ x0 a))) → InsideSeq realDoms L (ρ x0) → RegSeq L ρ x0
  | [], _, _, _, _ => trivial
  | x :: xs, ρ, hw, hρ, hi => by
    have hx := hw x (by simp)
    refine ⟨?_, insideSeq_reg xs _ (fun z hz => hw z (by simp [hz])) (fun a => exec_tendsto hx hi.1 hρ a) ?_⟩
    · by_cases hs : x.isStmt = false
      · have hp := WFStmt_pure hs hx
        have key : x.Inside realDoms (ρ x0) → x.Reg ρ x0 := fun hi => inside_reg hρ hp.1 hi
        have h1 := hi.1
        cases x <;> first | exact key h1 | exact hx.elim | simp [Expr.isStmt] at hs
      · have h1 := hi.1
        cases x with
        | eq v e w => exact inside_reg hρ hx.1 h1
        | opEq op v e w c =>
          refine ⟨inside_reg hρ hx.1 h1.1, ?_⟩
          rw [← exact_eq_denote hx.1 h1.1]
          exact h1.2
        | glue => exact hx.elim
        | forEach => exact hx.elim
        | _ => simp [Expr.isStmt] at hs
    · rw [← (exactStmt_real hx hi.1).2]
      exact hi.2

/-- over the reals the backward evaluation is that of the mathematical program -/
theorem gbackL_real {p : Expr ℝ} {vok aok : ℕ → Bool} {qv qa : ℕ} (hp : p.Program) (hal : p.Alive vok aok)
    (hf : (∀ k < p.bindSize.val, vok (qv + k) = false) ∧ ∀ k < p.bindSize.adj, aok (qa + k) = false) (m seed A : ℕ → ℝ) {a : ℕ} (ha : a ∈ p.adjCells) :
    gbackL p.flat m seed A a = backL p.flat m seed A a := by
  have hf' : Fresh (⟨m, A, vok, aok⟩ : St ℝ) p.bindSize qv qa := hf
  have hal' : p.Alive (⟨m, A, vok, aok⟩ : St ℝ).vok (⟨m, A, vok, aok⟩ : St ℝ).aok := hal
  let b := bindExpr p qv qa 0 0 (⟨m, A, vok, aok⟩ : St ℝ)
  let S : St ℝ := ⟨m, A, b.2.vok, b.2.aok⟩
  have hl : Later b.2 S := ⟨fun _ h => h, fun _ h => h⟩
  obtain ⟨s1, r1, h1⟩ := later_autodiff hp hal' hf' hl seed
  obtain ⟨s2, r2, h2⟩ := (later_prog hp hal' hf' hl).gautodiff (m := S.val) (known_block hal' hf') hp.needOk (fun _ _ => rfl) hp.shapeOk seed
  have h3 : (s2, r2) = (s1, r1) := Option.some.inj (h2.run.symm.trans h1.run)
  have hok := adjCells_alive hal a ha
  have h4 := h2.adj a (notin_blockA hf' hok)
  rw [show s2 = s1 from congrArg Prod.fst h3, h1.adj a (fresh_block hf'.2 hok)] at h4
  exact h4.symm

theorem Expr.Program.stmts {p : Expr ℝ} (hp : p.Program) : ∀ x ∈ p.flat, x.WFStmt := fun x hx => ((flat_spec p hp.tree).1 x hx).1

end FastAD
