import Verif.Spec.Program
import Verif.Proof.Api

/-!
# Bound statements, over an arbitrary scalar type
-/

namespace FastAD

section
variable {α : Type}

open Classical in
/-- the heap with the caches of `h` and the variables of `m` -/
noncomputable def merge (BV : Set ℕ) (h m : ℕ → α) : ℕ → α := fun a => if a ∈ BV then h a else m a

theorem merge_in {BV : Set ℕ} {h m : ℕ → α} {a : ℕ} (ha : a ∈ BV) : merge BV h m a = h a := if_pos ha

theorem merge_out {BV : Set ℕ} {h m : ℕ → α} {a : ℕ} (ha : a ∉ BV) : merge BV h m a = m a := if_neg ha

end

variable {α : Type} [Zero α] [One α] [Add α] [Sub α] [Neg α] [Mul α] [Div α] [NatCast α] [IntCast α]
variable [Fn α] [HasInf α] [LinAlg α]
set_option linter.unusedSectionVars false

theorem Expr.WF.flat {e : Expr α} (h : e.WF) : e.flat = [e] := by
  cases e <;> first | rfl | exact h.elim

/-- value cells of the caches of a statement -/
def Expr.lv : Expr α → Set ℕ
  | .eq _ e _ => e.innerV
  | .opEq _ _ e _ c => e.ownV ∪ rng c.val c.size
  | e => e.ownV

/-- adjoint cells of the caches of a statement -/
def Expr.la : Expr α → Set ℕ
  | .eq _ e _ => e.innerA
  | .opEq _ _ e _ c => e.ownA ∪ rng c.adj c.size
  | e => e.ownA

theorem Expr.WF.lv {e : Expr α} (h : e.WF) : e.lv = e.ownV := by
  cases e <;> first | rfl | exact h.elim

theorem Expr.WF.la {e : Expr α} (h : e.WF) : e.la = e.ownA := by
  cases e <;> first | rfl | exact h.elim

/-- a bound pure expression with caches in `BV`, `BA` and variables outside -/
structure PureB (vok aok : ℕ → Bool) (BV BA : Set ℕ) (e : Expr α) : Prop where
  wf : e.WF
  wb : e.WB vok aok
  ownV : e.ownV ⊆ BV
  ownA : e.ownA ⊆ BA
  dV : Disjoint BV e.reads
  dA : Disjoint BA e.readsA

/-- a bound placeholder statement -/
structure EqB (vok aok : ℕ → Bool) (BV BA : Set ℕ) (v : View) (e : Expr α) (w : View) : Prop where
  wf : e.WF
  wb : e.WB vok aok
  accV : accessible vok v.val v.size
  accA : accessible aok v.adj v.size
  shape : e.shape = v.shape
  wshape : w.shape = v.shape
  wval : w.val = v.val
  inV : e.innerV ⊆ BV
  inA : e.innerA ⊆ BA
  dV : Disjoint BV (e.reads ∪ rng v.val v.size)
  dA : Disjoint BA (e.readsA ∪ rng v.adj v.size)
  dvr : Disjoint (rng v.val v.size) e.reads
  dva : Disjoint (rng v.adj v.size) e.readsA
  notProd : e.isProdElem = false
  root : (e.valRoot = ∅ ∧ e.adjRoot = ∅) ∨
    (e.isIf = false ∧ e.getRef = .ptr v.val ∧ e.view.adj = v.adj ∧ e.valRoot ⊆ rng v.val v.size ∧ e.adjRoot ⊆ rng v.adj v.size)

/-- a bound compound assignment -/
structure OpB (vok aok : ℕ → Bool) (BV BA : Set ℕ) (v : View) (e : Expr α) (w c : View) : Prop where
  pure : PureB vok aok BV BA e
  notIf : e.isIf = false
  accV : accessible vok v.val v.size
  accA : accessible aok v.adj v.size
  vshape : v.shape.Ok
  shape : e.shape.isScl = true ∨ e.shape = v.shape
  wshape : w.shape = v.shape
  wval : w.val = v.val
  cshape : c.shape = v.shape
  caccV : accessible vok c.val c.size
  caccA : accessible aok c.adj c.size
  cV : rng c.val c.size ⊆ BV
  cA : rng c.adj c.size ⊆ BA
  dcV : Disjoint (rng c.val c.size) e.ownV
  dcA : Disjoint (rng c.adj c.size) e.ownA
  dV : Disjoint BV (rng v.val v.size)
  dA : Disjoint BA (rng v.adj v.size)
  overlap : e.NoPartialOverlap v

/-- a bound statement -/
def StmtB (vok aok : ℕ → Bool) (BV BA : Set ℕ) : Expr α → Prop
  | .eq v e w => EqB vok aok BV BA v e w
  | .opEq _ v e w c => OpB vok aok BV BA v e w c
  | e => PureB vok aok BV BA e ∧ e.isIf = false ∧ e.getRef = .ptr e.view.val

/-- a pure expression is neither of the assignment statements -/
def Expr.isStmt : Expr α → Bool
  | .eq _ _ _ => true
  | .opEq _ _ _ _ _ => true
  | _ => false

theorem StmtB.pure {vok aok : ℕ → Bool} {BV BA : Set ℕ} {x : Expr α} (h : StmtB vok aok BV BA x) (hs : x.isStmt = false) :
    PureB vok aok BV BA x ∧ x.isIf = false ∧ x.getRef = .ptr x.view.val := by
  cases x <;> first | exact h | simp [Expr.isStmt] at hs

/-- the operand of a compound assignment does not clash with the target -/
theorem op_noClash {vok aok : ℕ → Bool} {BV BA : Set ℕ} {v w c : View} {e : Expr α} (hb : OpB vok aok BV BA v e w c) :
    noClash v.val v.size e.getRef e.size := by
  have hr : ∀ u : View, rng u.val u.size ⊆ e.ownV → noClash v.val v.size (Ref.ptr u.val : Ref α) u.size := by
    intro u hu
    exact noClash_ptr ((hb.dV.mono_left (hu.trans hb.pure.ownV)).symm)
  have hp : ∀ (p : Option ℕ) (n : ℕ), (p = v.val ∧ n = v.size) ∨ (∀ j < n, ∀ k < v.size, addr p + j ≠ addr v.val + k) →
      noClash v.val v.size (Ref.ptr p : Ref α) n := by
    rintro p n (⟨rfl, rfl⟩ | h)
    · exact Or.inl ⟨rfl, rfl⟩
    · refine noClash_ptr (Set.disjoint_left.2 fun a ha hb => ?_)
      obtain ⟨k, hk, rfl⟩ := mem_rng_iff.1 ha
      obtain ⟨j, hj, h2⟩ := mem_rng_iff.1 hb
      exact h j hj k hk h2.symm
  have hwf := hb.pure.wf
  have hov := hb.overlap
  have hif := hb.notIf
  cases e with
  | var u => exact hp _ _ hov
  | const => trivial
  | cview sh p => exact hp _ _ hov
  | ifElse => simp [Expr.isIf] at hif
  | eq => exact hwf.elim
  | opEq => exact hwf.elim
  | glue => exact hwf.elim
  | forEach => exact hwf.elim
  | _ => exact hr _ fun a ha => Or.inr ha

theorem bcast_operand {e : Expr α} {v : View} {y : ℕ → α} (hok : e.shape.Ok) (h : e.shape.isScl = true ∨ e.shape = v.shape) {k : ℕ}
    (hk : k < v.size) : bcast e.shape (trunc e.size y) k = y (if e.shape.isScl then 0 else k) := by
  unfold bcast Shape.bidx
  by_cases hs : e.shape.isScl = true
  · simp only [hs, if_true]
    exact trunc_of_lt (by rw [Expr.size, hok.size_scl hs]; exact Nat.one_pos)
  · simp only [hs]
    rcases h with h | h
    · exact absurd h hs
    · exact trunc_of_lt (by rw [Expr.size, h]; exact hk)

/-- value cells mentioned by a statement -/
def Expr.ment : Expr α → Set ℕ
  | .eq v e _ => e.reads ∪ rng v.val v.size
  | .opEq _ v e _ _ => e.reads ∪ rng v.val v.size
  | e => e.reads

/-- adjoint cells mentioned by a statement -/
def Expr.mentA : Expr α → Set ℕ
  | .eq v e _ => e.readsA ∪ rng v.adj v.size
  | .opEq _ v e _ _ => e.readsA ∪ rng v.adj v.size
  | e => e.readsA

/-- the values after the backward evaluation of a statement executed in store `m` -/
noncomputable def Expr.undo : Expr α → (ℕ → α) → (ℕ → α) → ℕ → α
  | .opEq _ v _ _ _, m, h => assign h v (fun k => m (addr v.val + k))
  | _, _, h => h

theorem bevalVar_eq {s : St α} {v : View} {seed : ℕ → α} (h : accessible s.aok v.adj v.size) :
    v.bevalVar seed s = some { s with adj := fillRange s.adj (addr v.adj) v.size (fun k => trunc v.size (fun k => s.adj (addr v.adj + k)) k + seed k) } := by
  simp only [View.bevalVar, St.readA, readCells_eq h, Option.bind_eq_bind, Option.bind_some]
  exact writeA_eq h

end FastAD
