import Verif.Proof.Joint
import Verif.Proof.Loop

/-!
# A statistical model as a program

A sum of log-densities is a program of one statement without assignments.
-/

set_option linter.unusedSectionVars false

namespace FastAD

variable [HasInf ℝ] [LinAlg ℝ]

/-- the root of a sum of log-densities -/
theorem joint_root (t : Term) (ts : List Term) : (∃ op es w, joint t ts = .reduce op es w) ∨ ∃ op l r w, joint t ts = .binary op l r w := by
  refine joint_induct (P := fun e => (∃ op es w, e = .reduce op es w) ∨ ∃ op l r w, e = .binary op l r w) (.inl ⟨_, _, _, rfl⟩) fun e u _ _ _ _ => .inr ⟨_, _, _, _, rfl⟩

theorem joint_flat (t : Term) (ts : List Term) : (joint t ts).flat = [joint t ts] := by
  obtain ⟨op, es, w, h⟩ | ⟨op, l, r, w, h⟩ := joint_root t ts <;> rw [h] <;> rfl

theorem joint_program {t : Term} {ts : List Term} (h : ∀ u ∈ t :: ts, u.Ok) : (joint t ts).Program := by
  have hwf := joint_wf h
  constructor
  · obtain ⟨op, es, w, h⟩ | ⟨op, l, r, w, h⟩ := joint_root t ts <;> rw [h] at hwf ⊢ <;> exact ⟨hwf, rfl, trivial⟩
  · rw [joint_flat]; exact List.pairwise_singleton ..
  · rw [joint_flat]; simp

theorem joint_stable (t : Term) (ts : List Term) : (joint t ts).Stable := .inl (by rw [joint_shape]; rfl)

theorem joint_result (t : Term) (ts : List Term) : (joint t ts).result = (joint t ts).denote := by
  funext m k
  obtain ⟨op, es, w, h⟩ | ⟨op, l, r, w, h⟩ := joint_root t ts <;> rw [h] <;> rfl

theorem joint_targets (t : Term) (ts : List Term) : (joint t ts).placeCells = ∅ ∧ (joint t ts).targetCells = ∅ ∧ (joint t ts).targetAdj = ∅ := by
  rw [Expr.placeCells, Expr.targetCells, Expr.targetAdj, joint_flat]
  obtain ⟨op, es, w, h⟩ | ⟨op, l, r, w, h⟩ := joint_root t ts <;> rw [h] <;> exact ⟨rfl, rfl, rfl⟩

theorem joint_regSeq {E : Type} [NormedAddCommGroup E] [NormedSpace ℝ E] {t : Term} {ts : List Term} {ρ : E → ℕ → ℝ} {x0 : E} (h : ∀ u ∈ t :: ts, u.Ok)
    (hs : ∀ u ∈ t :: ts, u.SmoothAt ρ x0) : RegSeq (joint t ts).flat ρ x0 := by
  have hr := joint_reg h hs
  rw [joint_flat]
  refine ⟨?_, trivial⟩
  obtain ⟨op, es, w, h⟩ | ⟨op, l, r, w, h⟩ := joint_root t ts <;> rw [h] at hr ⊢ <;> exact hr

end FastAD
