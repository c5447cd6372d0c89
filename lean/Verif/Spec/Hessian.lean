import Verif.Spec.Inside
import Verif.Spec.Regular

/-!
# Expressions that can be differentiated twice
-/

namespace FastAD

/-- The functions that forward variables have (and `sigmoid`, which is composed of them) in their open domains, division by numbers other than 0; no comparisons, powers or products over lists, which do not
exist for forward variables, and no `erf`, whose forward-mode derivative is wrong (DESIGN.md, disagreements). -/
def fwdDoms : Doms ℝ where
  un op x := op ≠ .erf ∧ op ≠ .sinh ∧ op ≠ .cosh ∧ op ≠ .tanh ∧ op.DomAt x
  den x := x ≠ 0
  cmp _ _ := False
  pow _ _ := False
  fac _ := False
  stat _ _ _ := False

end FastAD
