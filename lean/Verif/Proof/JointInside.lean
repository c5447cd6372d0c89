import Verif.Proof.Joint
import Verif.Proof.Converge

/-!
# Sums of log-densities inside their domains
-/

namespace FastAD

variable [HasInf ℝ] [LinAlg ℝ]
set_option linter.unusedSectionVars false

theorem Term.elementary_adm {o : StatOp} (h : o.elementary = true) (n : ℕ) (v : Args ℝ) : o.Adm n v := by
  cases o <;> simp only [StatOp.elementary, Bool.false_eq_true] at h <;> trivial

theorem Term.Ok.inside {t : Term} (h : t.Ok) {m : ℕ → ℝ} (he : t.op.elementary = true) (hi : t.args.Insides realDoms m) (hv : t.op.valid t.rows (t.at m)) : t.expr.Inside realDoms m := by
  refine ⟨hi, .inr (.inr ?_)⟩
  rw [exacts_eq_denotes h.1 hi]
  obtain ⟨n, op, hop, hargs⟩ := h.2.ops
  have hden : t.args.denotes m = t.op.slots.map fun s => ((op s).shape, (op s).denote m) := by rw [hargs, denotes_ofList, List.map_map]; rfl
  have h1 := h.args m
  rw [hden, statArgs_ops hop] at h1
  obtain ⟨h2, h3⟩ := Prod.mk.inj (Option.some.inj h1)
  refine ⟨t.op, t.kinds, n, opArgs t.op.discrete fun s => trunc (op s).shape.size ((op s).denote m), rfl, ?_, he, ?_⟩
  · rw [hden, List.map_map, show (t.op.slots.map ((fun x : Shape × (ℕ → ℝ) => (x.1, trunc x.1.size x.2)) ∘ fun s => ((op s).shape, (op s).denote m))) =
      t.op.slots.map fun s => ((op s).shape, trunc (op s).shape.size ((op s).denote m)) from rfl, statArgs_ops hop]
  · rw [← h3, ← h2] at hv
    exact (StatOp.Agree.of_trunc hop m).congr.1.2 hv

theorem joint_inside {t : Term} {ts : List Term} {m : ℕ → ℝ} (h : ∀ u ∈ t :: ts, u.Ok ∧ u.op.elementary = true ∧ u.args.Insides realDoms m ∧ u.op.valid u.rows (u.at m)) :
    (joint t ts).Inside realDoms m := by
  have key : ∀ u ∈ t :: ts, u.expr.Inside realDoms m := fun u hu => (h u hu).1.inside (h u hu).2.1 (h u hu).2.2.1 (h u hu).2.2.2
  exact joint_induct (P := fun e => e.Inside realDoms m) (key t (List.mem_cons_self ..)) fun e u hu _ _ he => ⟨he, key u (List.mem_cons_of_mem _ hu), trivial⟩

end FastAD
