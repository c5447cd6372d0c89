import Verif.Spec.Pointer

/-!
# How far the pointers of `bind_cache` move
-/

namespace FastAD

variable {α : Type}

/-- the larger one of each kind -/
def SizePack.sup (m n : SizePack) : SizePack := ⟨max m.val n.val, max m.adj n.adj⟩

mutual
/-- The largest number of cells that lie behind the two pointers while `bind_cache` of the expression runs: after each part, the pointers have moved by the number of cells of the parts so far, but
an assignment first moves them by the cells of the whole right-hand side and then back by those of its root. -/
def Expr.peak : Expr α → SizePack
  | .var _ | .const _ _ | .cview _ _ => ⟨0, 0⟩
  | .unary op e w => e.peak.sup (Expr.unary op e w).bindSize
  | .pow n e w => e.peak.sup (Expr.pow n e w).bindSize
  | .prodElem e w c => e.peak.sup (Expr.prodElem e w c).bindSize
  | .transpose e w => e.peak.sup (Expr.transpose e w).bindSize
  | .binary op l r w => (l.peak.sup (l.bindSize + r.peak)).sup (Expr.binary op l r w).bindSize
  | .dot l r w => (l.peak.sup (l.bindSize + r.peak)).sup (Expr.dot l r w).bindSize
  | .sumIter es w => es.peaks.sup (Expr.sumIter es w).bindSize
  | .prodIter es w => es.peaks.sup (Expr.prodIter es w).bindSize
  | .reduce op es w => es.peaks.sup (Expr.reduce op es w).bindSize
  | .ifElse c x y _ => (c.peak.sup (c.bindSize + x.peak)).sup (c.bindSize + x.bindSize + y.peak)
  | .eq _ e _ => e.peak
  | .opEq op v e w c => e.peak.sup (Expr.opEq op v e w c).bindSize
  | .glue l r _ => l.peak.sup (l.bindSize + r.peak)
  | .forEach es _ => es.peaks
/-- the same for a list of expressions -/
def Exprs.peaks : Exprs α → SizePack
  | .nil => ⟨0, 0⟩
  | .cons e es => e.peak.sup (e.bindSize + es.peaks)
end

mutual
/-- Assignments have right-hand sides of the size of the variable; compound assignments keep the shape of the variable; sequences end with something that is stored and has the shape of the sequence. -/
def Expr.Tidy : Expr α → Prop
  | .var _ | .const _ _ | .cview _ _ => True
  | .unary _ e _ | .pow _ e _ | .prodElem e _ _ | .transpose e _ => e.Tidy
  | .binary _ l r _ | .dot l r _ => l.Tidy ∧ r.Tidy
  | .sumIter es _ | .prodIter es _ | .reduce _ es _ => es.Tidys
  | .ifElse c a b _ => c.Tidy ∧ a.Tidy ∧ b.Tidy
  | .eq v e w => w.shape = v.shape ∧ e.shape = v.shape ∧ e.Tidy
  | .opEq _ v e w _ => w.shape = v.shape ∧ e.Tidy
  | .glue l r w => l.Tidy ∧ r.Tidy ∧ r.HasStorage ∧ r.size = w.size
  | .forEach es w => es.Tidys ∧ es.lastHasStorage w.size
/-- the same for a list of expressions -/
def Exprs.Tidys : Exprs α → Prop
  | .nil => True
  | .cons e es => e.Tidy ∧ es.Tidys
end

end FastAD
