import Verif.Spec.Blocks

/-!
# Memory layout of a bound expression

Which cells an expression owns (its caches), which it reads, and what it means that no two caches overlap.
-/

namespace FastAD

variable {α : Type}

theorem mem_rng {p : Option ℕ} {n a : ℕ} : a ∈ rng p n ↔ addr p ≤ a ∧ a < addr p + n := Iff.rfl

theorem add_mem_rng {p : Option ℕ} {n k : ℕ} (h : k < n) : addr p + k ∈ rng p n := by
  simp [mem_rng, h]

theorem mem_rng_iff {p : Option ℕ} {n a : ℕ} : a ∈ rng p n ↔ ∃ k < n, a = addr p + k := by
  constructor
  · rintro ⟨h1, h2⟩; exact ⟨a - addr p, by omega, by omega⟩
  · rintro ⟨k, hk, rfl⟩; exact add_mem_rng hk

/-- is this a `ProdElemNode`?  (its adjoint scratch cells are not those of its view) -/
def Expr.isProdElem : Expr α → Bool
  | .prodElem _ _ _ => true
  | _ => false

/-- does the node's `beval` use an adjoint cache of its own? -/
def Expr.adjRoot : Expr α → Set ℕ
  | .unary _ _ w => rng w.adj w.size
  | .binary op _ _ w => if op.isComparison then ∅ else rng w.adj w.size
  | .pow n _ w => if n = 0 ∨ n = 1 then ∅ else rng w.adj w.size
  | .prodElem e _ c => rng c e.size
  | .transpose _ w => rng w.adj w.size
  | .dot _ _ w => rng w.adj w.size
  | .sumIter _ w => rng w.adj w.size
  | .prodIter _ w => rng w.adj w.size
  | _ => ∅

/-- cells in which the node itself caches its value -/
def Expr.valRoot : Expr α → Set ℕ
  | .unary _ _ w => rng w.val w.size
  | .binary _ _ _ w => rng w.val w.size
  | .pow _ _ w => rng w.val w.size
  | .prodElem _ w _ => rng w.val w.size
  | .transpose _ w => rng w.val w.size
  | .dot _ _ w => rng w.val w.size
  | .sumIter _ w => rng w.val w.size
  | .prodIter _ w => rng w.val w.size
  | .reduce _ _ w => rng w.val w.size
  | _ => ∅

mutual
/-- value cells owned by the strict subexpressions (placeholders of blocks included) -/
def Expr.innerV : Expr α → Set ℕ
  | .unary _ e _ => e.innerV ∪ e.valRoot
  | .binary _ l r _ => (l.innerV ∪ l.valRoot) ∪ (r.innerV ∪ r.valRoot)
  | .pow _ e _ => e.innerV ∪ e.valRoot
  | .prodElem e _ _ => e.innerV ∪ e.valRoot
  | .transpose e _ => e.innerV ∪ e.valRoot
  | .dot l r _ => (l.innerV ∪ l.valRoot) ∪ (r.innerV ∪ r.valRoot)
  | .sumIter es _ => es.ownVs
  | .prodIter es _ => es.ownVs
  | .reduce _ es _ => es.ownVs
  | .ifElse c a b _ => (c.innerV ∪ c.valRoot) ∪ ((a.innerV ∪ a.valRoot) ∪ (b.innerV ∪ b.valRoot))
  | .eq v e _ => (e.innerV ∪ e.valRoot) ∪ rng v.val v.size
  | .glue l r _ => (l.innerV ∪ l.valRoot) ∪ (r.innerV ∪ r.valRoot)
  | _ => ∅
/-- value cells owned by a list of expressions -/
def Exprs.ownVs : Exprs α → Set ℕ
  | .nil => ∅
  | .cons e es => (e.innerV ∪ e.valRoot) ∪ es.ownVs
end

/-- value cells owned by an expression -/
def Expr.ownV (e : Expr α) : Set ℕ := e.innerV ∪ e.valRoot

mutual
/-- adjoint cells owned by the strict subexpressions (placeholders of blocks included) -/
def Expr.innerA : Expr α → Set ℕ
  | .unary _ e _ => e.innerA ∪ e.adjRoot
  | .binary _ l r _ => (l.innerA ∪ l.adjRoot) ∪ (r.innerA ∪ r.adjRoot)
  | .pow _ e _ => e.innerA ∪ e.adjRoot
  | .prodElem e _ _ => e.innerA ∪ e.adjRoot
  | .transpose e _ => e.innerA ∪ e.adjRoot
  | .dot l r _ => (l.innerA ∪ l.adjRoot) ∪ (r.innerA ∪ r.adjRoot)
  | .sumIter es _ => es.ownAs
  | .prodIter es _ => es.ownAs
  | .reduce _ es _ => es.ownAs
  | .ifElse c a b _ => (c.innerA ∪ c.adjRoot) ∪ ((a.innerA ∪ a.adjRoot) ∪ (b.innerA ∪ b.adjRoot))
  | .eq v e _ => (e.innerA ∪ e.adjRoot) ∪ rng v.adj v.size
  | .glue l r _ => (l.innerA ∪ l.adjRoot) ∪ (r.innerA ∪ r.adjRoot)
  | _ => ∅
/-- adjoint cells owned by a list of expressions -/
def Exprs.ownAs : Exprs α → Set ℕ
  | .nil => ∅
  | .cons e es => (e.innerA ∪ e.adjRoot) ∪ es.ownAs
end

/-- adjoint cells owned by an expression -/
def Expr.ownA (e : Expr α) : Set ℕ := e.innerA ∪ e.adjRoot

mutual
/-- adjoint cells of the placeholders in the blocks of an expression -/
def Expr.phA : Expr α → Set ℕ
  | .unary _ e _ => e.phA
  | .binary _ l r _ => l.phA ∪ r.phA
  | .pow _ e _ => e.phA
  | .prodElem e _ _ => e.phA
  | .transpose e _ => e.phA
  | .dot l r _ => l.phA ∪ r.phA
  | .sumIter es _ => es.phAs
  | .prodIter es _ => es.phAs
  | .reduce _ es _ => es.phAs
  | .ifElse c a b _ => c.phA ∪ (a.phA ∪ b.phA)
  | .eq _ e _ => e.phA
  | .glue l r _ => l.defsA ∪ (l.phA ∪ r.phA)
  | _ => ∅
/-- the same for a list of expressions -/
def Exprs.phAs : Exprs α → Set ℕ
  | .nil => ∅
  | .cons e es => e.phA ∪ es.phAs
end

/-- adjoint cells of the placeholders in the blocks of the right-hand sides of a sequence of assignments -/
def Expr.phS : Expr α → Set ℕ
  | .eq _ e _ => e.phA
  | .glue l r _ => l.phS ∪ r.phS
  | _ => ∅

mutual
/-- Well-bound: every cache the node uses is accessible, and the caches of different nodes do not overlap. -/
def Expr.WB (vok aok : ℕ → Bool) : Expr α → Prop
  | .var v => accessible vok v.val v.size ∧ accessible aok v.adj v.size
  | .const _ _ => True
  | .cview sh p => accessible vok p sh.size
  | .unary _ e w => e.WB vok aok ∧ accessible vok w.val w.size ∧ accessible aok w.adj w.size ∧
      Disjoint (rng w.val w.size) e.ownV ∧ Disjoint (rng w.adj w.size) e.ownA
  | .binary op l r w => l.WB vok aok ∧ r.WB vok aok ∧ Disjoint l.ownV r.ownV ∧ Disjoint l.ownA r.ownA ∧
      accessible vok w.val w.size ∧ Disjoint (rng w.val w.size) (l.ownV ∪ r.ownV) ∧
      (op.isComparison = false → accessible aok w.adj w.size ∧ Disjoint (rng w.adj w.size) (l.ownA ∪ r.ownA))
  | .pow n e w => e.WB vok aok ∧ accessible vok w.val w.size ∧ Disjoint (rng w.val w.size) e.ownV ∧
      (¬ (n = 0 ∨ n = 1) → accessible aok w.adj w.size ∧ Disjoint (rng w.adj w.size) e.ownA)
  | .prodElem e w c => e.WB vok aok ∧ accessible vok w.val w.size ∧ accessible aok c e.size ∧
      Disjoint (rng w.val w.size) e.ownV ∧ Disjoint (rng c e.size) e.ownA
  | .transpose e w => e.WB vok aok ∧ accessible vok w.val w.size ∧ accessible aok w.adj w.size ∧
      Disjoint (rng w.val w.size) e.ownV ∧ Disjoint (rng w.adj w.size) e.ownA
  | .dot l r w => l.WB vok aok ∧ r.WB vok aok ∧ Disjoint l.ownV r.ownV ∧ Disjoint l.ownA r.ownA ∧
      accessible vok w.val w.size ∧ accessible aok w.adj w.size ∧
      Disjoint (rng w.val w.size) (l.ownV ∪ r.ownV) ∧ Disjoint (rng w.adj w.size) (l.ownA ∪ r.ownA)
  | .sumIter es w => es.WBs vok aok ∧ accessible vok w.val w.size ∧ accessible aok w.adj w.size ∧
      Disjoint (rng w.val w.size) es.ownVs ∧ Disjoint (rng w.adj w.size) es.ownAs
  | .prodIter es w => es.WBs vok aok ∧ accessible vok w.val w.size ∧ accessible aok w.adj w.size ∧
      Disjoint (rng w.val w.size) es.ownVs ∧ Disjoint (rng w.adj w.size) es.ownAs
  | .reduce _ es w => es.WBs vok aok ∧ accessible vok w.val w.size ∧ Disjoint (rng w.val w.size) es.ownVs
  | .ifElse c a b _ => c.WB vok aok ∧ a.WB vok aok ∧ b.WB vok aok ∧
      Disjoint c.ownV (a.ownV ∪ b.ownV) ∧ Disjoint c.ownA (a.ownA ∪ b.ownA) ∧
      Disjoint a.ownV b.ownV ∧ Disjoint a.ownA b.ownA
  | .eq v e w => e.WB vok aok ∧ accessible vok v.val v.size ∧ accessible aok v.adj v.size ∧ w.val = v.val ∧
      Disjoint e.innerV (rng v.val v.size) ∧ Disjoint e.innerA (rng v.adj v.size) ∧ e.isProdElem = false ∧
      ((e.valRoot = ∅ ∧ e.adjRoot = ∅) ∨
        (e.isIf = false ∧ e.view.val = v.val ∧ e.view.adj = v.adj ∧ e.valRoot ⊆ rng v.val v.size ∧ e.adjRoot ⊆ rng v.adj v.size))
  | .glue l r w => l.WB vok aok ∧ r.WB vok aok ∧ Disjoint l.ownV r.ownV ∧ Disjoint l.ownA r.ownA ∧ w.val = r.view.val
  | _ => False
/-- the same for a list: additionally the expressions' caches are mutually disjoint -/
def Exprs.WBs (vok aok : ℕ → Bool) : Exprs α → Prop
  | .nil => True
  | .cons e es => e.WB vok aok ∧ es.WBs vok aok ∧ Disjoint e.ownV es.ownVs ∧ Disjoint e.ownA es.ownAs
end

noncomputable section
variable [HasInf ℝ] [LinAlg ℝ]

open Classical in
mutual
/-- All caches written by `feval` hold the values of their subexpressions for variable values `m`.
(Of an `if_else` only the branch that was taken is evaluated.) -/
def Expr.Cached : Expr ℝ → (ℕ → ℝ) → (ℕ → ℝ) → Prop
  | .var v, m, h => ∀ a ∈ rng v.val v.size, h a = m a
  | .const _ _, _, _ => True
  | .cview sh p, m, h => ∀ a ∈ rng p sh.size, h a = m a
  | .unary op e w, m, h => e.Cached m h ∧ ∀ k < w.size, h (addr w.val + k) = (Expr.unary op e w).denote m k
  | .binary op l r w, m, h => l.Cached m h ∧ r.Cached m h ∧
      ∀ k < w.size, h (addr w.val + k) = (Expr.binary op l r w).denote m k
  | .pow n e w, m, h => e.Cached m h ∧ ∀ k < w.size, h (addr w.val + k) = (Expr.pow n e w).denote m k
  | .prodElem e w c, m, h => e.Cached m h ∧ ∀ k < w.size, h (addr w.val + k) = (Expr.prodElem e w c).denote m k
  | .transpose e w, m, h => e.Cached m h ∧ ∀ k < w.size, h (addr w.val + k) = (Expr.transpose e w).denote m k
  | .dot l r w, m, h => l.Cached m h ∧ r.Cached m h ∧
      ∀ k < w.size, h (addr w.val + k) = (Expr.dot l r w).denote m k
  | .sumIter es w, m, h => es.Cacheds m h ∧ ∀ k < w.size, h (addr w.val + k) = (Expr.sumIter es w).denote m k
  | .prodIter es w, m, h => es.Cacheds m h ∧ ∀ k < w.size, h (addr w.val + k) = (Expr.prodIter es w).denote m k
  | .reduce op es w, m, h => es.Cacheds m h ∧ ∀ k < w.size, h (addr w.val + k) = (Expr.reduce op es w).denote m k
  | .ifElse c a b _, m, h => c.Cached m h ∧ (if c.denote m 0 ≠ 0 then a.Cached m h else b.Cached m h)
  | .eq v e _, m, h => e.Cached m h ∧ ∀ k < v.size, h (addr v.val + k) = e.denote m k
  | .glue l r _, m, h => l.Cached m h ∧ r.Cached (l.exec m) h
  | _, _, _ => False
/-- the same for a list -/
def Exprs.Cacheds : Exprs ℝ → (ℕ → ℝ) → (ℕ → ℝ) → Prop
  | .nil, _, _ => True
  | .cons e es, m, h => e.Cached m h ∧ es.Cacheds m h
end

/-- product of all values but number `i` -/
def prodOthers (xs : List (Shape × (ℕ → ℝ))) (i : ℕ) (k : ℕ) : ℝ := ((xs.eraseIdx i).map (fun x => x.2 k)).prod

open Classical in
mutual
/-- What `beval` with the given seed adds to the adjoint cell `a` of a variable (as a function of the variable
values `m` only). -/
def Expr.grad : Expr ℝ → (ℕ → ℝ) → (ℕ → ℝ) → ℕ → ℝ
  | .var v, _, seed, a => if addr v.adj ≤ a ∧ a < addr v.adj + v.size then seed (a - addr v.adj) else 0
  | .unary op e w, m, seed, a =>
      e.grad m (fun k => op.bmap (seed k) (e.denote m k) ((Expr.unary op e w).denote m k)) a
  | .binary op l r w, m, seed, a =>
      if op.isComparison then 0 else
        l.grad m (collapse l.shape w.shape w.size (fun k =>
          op.bl (seed k) (bcast l.shape (l.denote m) k) (bcast r.shape (r.denote m) k)
            ((Expr.binary op l r w).denote m k))) a +
        r.grad m (collapse r.shape w.shape w.size (fun k =>
          op.br (seed k) (bcast l.shape (l.denote m) k) (bcast r.shape (r.denote m) k)
            ((Expr.binary op l r w).denote m k))) a
  | .pow n e w, m, seed, a =>
      if n = 0 then e.grad m (fun _ => 0) a
      else if n = 1 then e.grad m seed a
      else e.grad m (fun k => powSeed n (seed k) ((Expr.pow n e w).denote m k) (e.denote m k)) a
  | .prodElem e _ _, m, seed, a =>
      e.grad m (fun j => seed 0 * ∏ i ∈ (Finset.range e.size).erase j, e.denote m i) a
  | .transpose e _, m, seed, a => e.grad m (transposed e.shape.rows e.shape.cols seed) a
  | .dot l r w, m, seed, a =>
      l.grad m (dotLSeed l.shape.rows l.shape.cols w.shape.cols (r.denote m) seed) a +
      r.grad m (dotRSeed l.shape.rows l.shape.cols (l.denote m) seed) a
  | .sumIter es _, m, seed, a => es.grads m (fun _ => some seed) 0 a
  | .prodIter es _, m, seed, a => es.grads m (fun i => some (fun k => seed k * prodOthers (es.denotes m) i k)) 0 a
  | .reduce op es w, m, seed, a =>
      es.grads m (fun i => op.bmap (seed 0) ((es.denotes m).map (fun x => (x.1, trunc x.1.size x.2)))
        ((Expr.reduce op es w).denote m 0) i) 0 a
  | .ifElse c x y _, m, seed, a => if c.denote m 0 ≠ 0 then x.grad m seed a else y.grad m seed a
  | .glue l r _, m, seed, a =>
      if a ∈ l.defsA then 0 else r.grad (l.exec m) seed a + l.gradS m (r.grad (l.exec m) seed) a
  | _, _, _, _ => 0
/-- What the backward pass of a sequence of placeholder assignments adds to the adjoint cell `a`, if the placeholders have received the adjoints `A` before. -/
def Expr.gradS : Expr ℝ → (ℕ → ℝ) → (ℕ → ℝ) → ℕ → ℝ
  | .eq v e _, m, A, a => e.grad m (fun k => A (addr v.adj + k)) a
  | .glue l r _, m, A, a =>
      if a ∈ l.defsA then 0 else
        r.gradS (l.exec m) A a + l.gradS m (fun b => A b + r.gradS (l.exec m) A b) a
  | _, _, _, _ => 0
/-- the same for a list of expressions, element `i` being seeded with `sd i` (or not visited) -/
def Exprs.grads : Exprs ℝ → (ℕ → ℝ) → (ℕ → Option (ℕ → ℝ)) → ℕ → ℕ → ℝ
  | .nil, _, _, _, _ => 0
  | .cons e es, m, sd, i, a =>
      (match sd i with | some g => e.grad m g a | none => 0) + es.grads m sd (i + 1) a
end

end

end FastAD
