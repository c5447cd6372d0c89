import Verif.Spec.Leaves

/-!
# Blocks with placeholders as operands

A block `(w1 = e1, ..., wn = en, r)` assigns its placeholders and delivers the value of `r`.  Placeholders belong to their block: they are used only after their assignment
and inside the block, and no two blocks share one.
-/

namespace FastAD

variable {α : Type}

/-- the cells `[p, p + n)` -/
def rng (p : Option ℕ) (n : ℕ) : Set ℕ := {a | addr p ≤ a ∧ a < addr p + n}

/-- value cells of the placeholders assigned by a sequence of assignments -/
def Expr.defs : Expr α → Set ℕ
  | .eq v _ _ => rng v.val v.size
  | .glue l r _ => l.defs ∪ r.defs
  | _ => ∅

/-- adjoint cells of the placeholders assigned by a sequence of assignments -/
def Expr.defsA : Expr α → Set ℕ
  | .eq v _ _ => rng v.adj v.size
  | .glue l r _ => l.defsA ∪ r.defsA
  | _ => ∅

mutual
/-- value cells of the variables (and constant views) mentioned in an expression, except for the placeholders in their scope -/
def Expr.reads : Expr α → Set ℕ
  | .var v => rng v.val v.size
  | .const _ _ => ∅
  | .cview sh p => rng p sh.size
  | .unary _ e _ => e.reads
  | .binary _ l r _ => l.reads ∪ r.reads
  | .pow _ e _ => e.reads
  | .prodElem e _ _ => e.reads
  | .transpose e _ => e.reads
  | .dot l r _ => l.reads ∪ r.reads
  | .sumIter es _ => es.readss
  | .prodIter es _ => es.readss
  | .reduce _ es _ => es.readss
  | .ifElse c a b _ => c.reads ∪ (a.reads ∪ b.reads)
  | .eq _ e _ => e.reads
  | .glue l r _ => l.reads ∪ (r.reads \ l.defs)
  | _ => ∅
/-- the same for a list of expressions -/
def Exprs.readss : Exprs α → Set ℕ
  | .nil => ∅
  | .cons e es => e.reads ∪ es.readss
end

mutual
/-- adjoint cells of the variables mentioned in an expression, except for the placeholders in their scope -/
def Expr.readsA : Expr α → Set ℕ
  | .var v => rng v.adj v.size
  | .unary _ e _ => e.readsA
  | .binary _ l r _ => l.readsA ∪ r.readsA
  | .pow _ e _ => e.readsA
  | .prodElem e _ _ => e.readsA
  | .transpose e _ => e.readsA
  | .dot l r _ => l.readsA ∪ r.readsA
  | .sumIter es _ => es.readsAs
  | .prodIter es _ => es.readsAs
  | .reduce _ es _ => es.readsAs
  | .ifElse c a b _ => c.readsA ∪ (a.readsA ∪ b.readsA)
  | .eq _ e _ => e.readsA
  | .glue l r _ => l.readsA ∪ (r.readsA \ l.defsA)
  | _ => ∅
/-- the same for a list of expressions -/
def Exprs.readsAs : Exprs α → Set ℕ
  | .nil => ∅
  | .cons e es => e.readsA ∪ es.readsAs
end

mutual
/-- the placeholders assigned anywhere inside an expression -/
def Expr.places : Expr α → List View
  | .unary _ e _ => e.places
  | .binary _ l r _ => l.places ++ r.places
  | .pow _ e _ => e.places
  | .prodElem e _ _ => e.places
  | .transpose e _ => e.places
  | .dot l r _ => l.places ++ r.places
  | .sumIter es _ => es.placess
  | .prodIter es _ => es.placess
  | .reduce _ es _ => es.placess
  | .ifElse c a b _ => c.places ++ (a.places ++ b.places)
  | .eq v e _ => v :: e.places
  | .glue l r _ => l.places ++ r.places
  | _ => []
/-- the same for a list of expressions -/
def Exprs.placess : Exprs α → List View
  | .nil => []
  | .cons e es => e.places ++ es.placess
end

/-- The views have no value cell and no adjoint cell in common. -/
def Distinct (L : List View) : Prop :=
  L.Pairwise fun u v => Disjoint (rng u.val u.size) (rng v.val v.size) ∧ Disjoint (rng u.adj u.size) (rng v.adj v.size)

/-- Well-formed expressions with blocks: no two assignments have the same placeholder, and no placeholder is mentioned outside of its scope (the part of its block
that follows the assignment). -/
structure Expr.WithBlocks (e : Expr α) : Prop where
  wf : e.NWF
  distinct : Distinct e.places
  scope : ∀ v ∈ e.places, Disjoint (rng v.val v.size) e.reads ∧ Disjoint (rng v.adj v.size) e.readsA

end FastAD
