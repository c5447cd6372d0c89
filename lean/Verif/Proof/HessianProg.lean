import Verif.Proof.Hessian
import Verif.Proof.ConvergeProg

/-!
# Reverse mode over forward variables: programs
-/

open Filter Topology

namespace FastAD

set_option linter.unusedSectionVars false

variable [HasInf ℝ] [LinAlg ℝ] [HasInf (Dual ℝ)] [LinAlg (Dual ℝ)]

theorem insideSeq_dual {p : Expr ℝ} {m : ℕ → ℝ} {M : ℕ → Dual ℝ} (hp : p.Program) (hi : InsideSeq fwdDoms p.flat m) (hM : ∀ a ∈ p.known, (M a).w = m a) :
    InsideSeq dualDoms (p.flat.map (Expr.map Dual.ofVal)) M := by
  have := related_insideSeq (D' := fun _ => dualDoms) (fun x => x) (fun _ => Dual.ofVal) real_dual_related (fun c => rfl)
    ⟨fun {op x c} h1 h2 => by simpa [dualDoms, h2] using h1, fun {x c} h1 h2 => by simpa [dualDoms, fwdDoms, h2] using h1, fun h => h.elim, fun h => h.elim, fun h => h.elim, fun h => h.elim⟩
    p.flat p.known m (fun _ => M) hp.stmts hp.needOk (by rwa [list_map_id]) hM
  simpa using this

theorem insideSeq_fwd_real {p : Expr ℝ} {m : ℕ → ℝ} (hp : p.Program) (hi : InsideSeq fwdDoms p.flat m) : InsideSeq realDoms p.flat m := by
  have := related_insideSeq (D' := fun _ => realDoms) (fun x => x) (fun _ x => x) real_self_related (fun c => rfl)
    ⟨fun {op x c} h1 h2 => by simpa [realDoms, plainDoms, h2] using h1.2.2.2.2, fun {x c} h1 h2 => by simpa [realDoms, plainDoms, fwdDoms, h2] using h1, fun h => h.elim, fun h => h.elim, fun h => h.elim, fun h => h.elim⟩
    p.flat p.known m (fun _ => m) hp.stmts hp.needOk (by rwa [list_map_id]) (fun _ _ => rfl)
  simpa [list_map_id] using this

end FastAD
