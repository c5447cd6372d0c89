import Verif.Spec.ExactProg
import Verif.Proof.ProgBind
import Verif.Proof.GenBeval

/-!
# Forward and backward evaluation of bound statements over an arbitrary scalar type
-/

namespace FastAD

variable {α : Type} [Zero α] [One α] [Add α] [Sub α] [Neg α] [Mul α] [Div α] [NatCast α] [IntCast α]
variable [Fn α] [HasInf α] [LinAlg α]
set_option linter.unusedSectionVars false

/-- the cells a statement assigns to -/
def Expr.tgt : Expr α → Set ℕ
  | .eq v _ _ => rng v.val v.size
  | .opEq _ v _ _ _ => rng v.val v.size
  | _ => ∅

/-- the cells whose values a statement needs -/
def Expr.need : Expr α → Set ℕ
  | .eq _ e _ => e.reads
  | .opEq _ v e _ _ => e.reads ∪ rng v.val v.size
  | e => e.reads

theorem Expr.WF.exactExec {e : Expr α} (h : e.WF) (m : ℕ → α) : e.exactExec m = m := by
  cases e <;> first | rfl | exact h.elim
theorem Expr.WF.exactResult {e : Expr α} (h : e.WF) (m : ℕ → α) : e.exactResult m = e.exact m := by
  cases e <;> first | rfl | exact h.elim
theorem Expr.WF.need {e : Expr α} (h : e.WF) : e.need = e.reads := by
  cases e <;> first | rfl | exact h.elim
theorem Expr.WF.tgt {e : Expr α} (h : e.WF) : e.tgt = ∅ := by
  cases e <;> first | rfl | exact h.elim
theorem Expr.WF.place {e : Expr α} (h : e.WF) : e.place = ∅ := by
  cases e <;> first | rfl | exact h.elim

theorem AOp.fmap_arith (op : AOp) (x y : α) : op.fmap x y = op.arith x y := by cases op <;> rfl

/-- the caches left behind by the forward evaluation of a statement in store `m` -/
def Expr.GPC (BV : Set ℕ) : Expr α → (ℕ → α) → (ℕ → α) → Prop
  | .eq v e _, m, h => e.Stored m (merge BV h (assign m v (e.exact m)))
  | .opEq _ v e _ c, m, h => e.Stored m (merge BV h m) ∧ ∀ k < v.size, h (addr c.val + k) = m (addr v.val + k)
  | e, m, h => e.Stored m (merge BV h m)

theorem Expr.GPC_pure {BV : Set ℕ} {e : Expr α} {m h : ℕ → α} (hs : e.isStmt = false) : e.GPC BV m h = e.Stored m (merge BV h m) := by
  cases e <;> first | rfl | simp [Expr.isStmt] at hs

/-- Outcome of the forward evaluation of a bound statement in a state whose cells `K` hold the values `m`. -/
structure GStepOk (BV K : Set ℕ) (x : Expr α) (m : ℕ → α) (s s' : St α) : Prop where
  run : x.feval s = some (s', .ptr x.view.val)
  adj : s'.adj = s.adj
  vok : s'.vok = s.vok
  aok : s'.aok = s.aok
  store : ∀ a ∈ K ∪ x.place, s'.val a = x.exactExec m a
  other : ∀ a, a ∉ BV → a ∉ x.tgt → s'.val a = s.val a
  frame : ∀ a, a ∈ BV → a ∉ x.lv → s'.val a = s.val a
  cached : x.GPC BV m s'.val
  acc : accessible s'.vok x.view.val x.size
  value : ∀ k < x.size, s'.val (addr x.view.val + k) = x.exactResult m k

theorem gstep_pure {BV BA K : Set ℕ} {e : Expr α} {m : ℕ → α} {s : St α} (hs : e.isStmt = false)
    (hb : StmtB s.vok s.aok BV BA e) (hKB : Disjoint K BV) (hK : e.need ⊆ K) (hm : ∀ a ∈ K, s.val a = m a) :
    ∃ s', GStepOk BV K e m s s' := by
  obtain ⟨hb, hif, href⟩ := hb.pure hs
  rw [hb.wf.need] at hK
  obtain ⟨s', r, h⟩ := gfeval_ok e m s hb.wf hb.wb (hb.dV.mono_left hb.ownV) (fun a ha => hm a (hK ha))
  have hr := feval_ref e hb.wf hif h.run
  rw [href] at hr
  subst hr
  have hread := accessible_of_read (h.ref.1 s' rfl fun _ _ => rfl)
  refine ⟨s', h.run, h.adj, h.vok, h.aok, ?_, ?_, ?_, ?_, hread.1, ?_⟩
  · intro a ha
    rw [hb.wf.place, Set.union_empty] at ha
    rw [h.frame a (fun x => disj_left hKB ha (hb.ownV x)), hb.wf.exactExec, hm a ha]
  · intro a ha _
    exact h.frame a fun x => ha (hb.ownV x)
  · intro a _ ha
    rw [hb.wf.lv] at ha
    exact h.frame a ha
  · rw [Expr.GPC_pure hs]
    refine Expr.Stored.congr e h.stored fun a ha => ?_
    rcases ha with ha | ha
    · exact merge_in (hb.ownV ha)
    · have h0 := disj_right hb.dV ha
      rw [merge_out h0, h.frame a fun x => h0 (hb.ownV x), hm a (hK ha)]
  · intro k hk
    rw [hread.2 k hk, trunc_of_lt hk, hb.wf.exactResult]

open Classical in
theorem gstep_eq {BV BA K : Set ℕ} {v w : View} {e : Expr α} {m : ℕ → α} {s : St α}
    (hb : EqB s.vok s.aok BV BA v e w) (hKB : Disjoint K BV) (hK : (Expr.eq v e w).need ⊆ K) (hm : ∀ a ∈ K, s.val a = m a) :
    ∃ s', GStepOk BV K (.eq v e w) m s s' := by
  have hK : e.reads ⊆ K := hK
  have hroot : e.valRoot ⊆ rng v.val v.size := by
    rcases hb.root with h | h
    · rw [h.1]; exact Set.empty_subset _
    · exact h.2.2.2.1
  have hdis : Disjoint e.ownV e.reads :=
    Set.disjoint_union_left.2 ⟨(Set.disjoint_union_right.1 hb.dV).1.mono_left hb.inV, hb.dvr.mono_left hroot⟩
  have hrB : ∀ a ∈ e.reads, a ∉ BV := fun a ha => disj_right (Set.disjoint_union_right.1 hb.dV).1 ha
  have hvB : ∀ a ∈ rng v.val v.size, a ∉ BV := fun a ha => disj_right (Set.disjoint_union_right.1 hb.dV).2 ha
  obtain ⟨s1, r, h⟩ := gfeval_ok e m s hb.wf hb.wb hdis (fun a ha => hm a (hK ha))
  have hread := h.ref.1 s1 rfl fun _ _ => rfl
  have hsz : e.size = v.size := by rw [Expr.size, hb.shape, View.size]
  have hwsz : w.size = v.size := by rw [View.size, hb.wshape, View.size]
  have hclash : noClash v.val v.size r e.size := by
    rcases hb.root with hr | hr
    · refine h.ref.2 _ _ (Set.disjoint_union_right.2 ⟨?_, hb.dvr⟩)
      rw [Expr.ownV, hr.1, Set.union_empty]
      exact ((Set.disjoint_union_right.1 hb.dV).2.mono_left hb.inV).symm
    · rw [feval_ref e hb.wf hr.1 h.run, hr.2.1]
      exact Or.inl ⟨rfl, hsz⟩
  let f : ℕ → α := trunc e.size (e.exact m)
  let s2 : St α := { s1 with val := fillRange s1.val (addr v.val) v.size f }
  let s3 : St α := { s2 with val := fillRange s2.val (addr v.val) v.size f }
  have hval : ∀ a, s3.val a = if a ∈ rng v.val v.size then e.exact m (a - addr v.val) else s1.val a := by
    intro a
    show fillRange (fillRange s1.val (addr v.val) v.size f) (addr v.val) v.size f a = _
    by_cases ha : a ∈ rng v.val v.size
    · rw [if_pos ha]
      obtain ⟨k, hk, rfl⟩ := mem_rng_iff.1 ha
      rw [fillRange_add hk, Nat.add_sub_cancel_left]
      exact trunc_of_lt (hsz ▸ hk)
    · rw [if_neg ha, fillRange_not_mem ha, fillRange_not_mem ha]
  have hrun : (Expr.eq v e w).feval s = some (s3, .ptr (Expr.eq v e w).view.val) := by
    simp only [Expr.feval, h.run, Option.bind_eq_bind, Option.bind_some]
    rw [if_pos (by rw [hb.shape]; exact ⟨rfl, rfl⟩), hread]
    simp only [Option.bind_some]
    rw [assignV_eq (h.vok ▸ hb.accV) hclash]
    simp only [Option.bind_some]
    rw [assignV_eq (s := s2) (by rw [hb.wval, hwsz]; exact h.vok ▸ hb.accV) (by left; rw [hb.wval, hwsz]; exact ⟨rfl, rfl⟩)]
    simp only [Option.bind_some, hb.wval, hwsz]
    simp [Expr.view, hb.wval]; rfl
  have hsame : ∀ a ∈ e.ownV ∪ e.reads, s3.val a = s1.val a := by
    intro a ha
    rw [hval]
    by_cases hav : a ∈ rng v.val v.size
    · rcases ha with ha | ha
      · rcases ha with ha | ha
        · exact absurd (hb.inV ha) (hvB a hav)
        · rcases hb.root with hr | hr
          · rw [hr.1] at ha; exact ha.elim
          · rw [if_pos hav]
            have h2 := hread
            rw [feval_ref e hb.wf hr.1 h.run, hr.2.1] at h2
            obtain ⟨k, hk, rfl⟩ := mem_rng_iff.1 hav
            rw [(accessible_of_read h2).2 k (hsz ▸ hk), trunc_of_lt (hsz ▸ hk), Nat.add_sub_cancel_left]
      · exact absurd ha (disj_left hb.dvr hav)
    · rw [if_neg hav]
  refine ⟨s3, hrun, h.adj, h.vok, h.aok, ?_, ?_, ?_, ?_, ?_, ?_⟩
  · intro a ha
    rw [hval]
    by_cases hav : a ∈ rng v.val v.size
    · rw [if_pos hav]
      obtain ⟨k, hk, rfl⟩ := mem_rng_iff.1 hav
      rw [Nat.add_sub_cancel_left]
      exact (assign_add hk).symm
    · have haK : a ∈ K := ha.resolve_right hav
      rw [if_neg hav, h.frame a (fun x => x.elim (fun x => disj_left hKB haK (hb.inV x)) fun x => hav (hroot x)), hm a haK]
      exact (assign_off hav).symm
  · intro a ha hav
    have hav : a ∉ rng v.val v.size := hav
    rw [hval, if_neg hav]
    exact h.frame a fun x => x.elim (fun x => ha (hb.inV x)) fun x => hav (hroot x)
  · intro a ha hn
    have hav : a ∉ rng v.val v.size := fun x => hvB a x ha
    rw [hval, if_neg hav]
    exact h.frame a fun x => x.elim (fun x => hn x) fun x => hav (hroot x)
  · show e.Stored m _
    refine Expr.Stored.congr e (Expr.Stored.congr e h.stored hsame) fun a ha => ?_
    rcases ha with ha | ha
    · rcases ha with ha | ha
      · exact merge_in (hb.inV ha)
      · have hav := hroot ha
        rw [merge_out (hvB a hav), hval, if_pos hav]
        obtain ⟨k, hk, rfl⟩ := mem_rng_iff.1 hav
        rw [assign_add hk, Nat.add_sub_cancel_left]
    · have h0 := hrB a ha
      have hav : a ∉ rng v.val v.size := disj_right hb.dvr ha
      rw [merge_out h0, hval, if_neg hav, assign_off hav, h.frame a (fun x => disj_left hdis x ha), hm a (hK ha)]
  · show accessible s1.vok w.val w.size
    rw [h.vok, hb.wval, hwsz]
    exact hb.accV
  · intro k hk
    have hk' : k < v.size := hwsz ▸ hk
    show s3.val (addr w.val + k) = e.exact m k
    rw [hb.wval, hval, if_pos (add_mem_rng hk'), Nat.add_sub_cancel_left]

open Classical in
theorem gstep_opEq {BV BA K : Set ℕ} {op : AOp} {v w c : View} {e : Expr α} {m : ℕ → α} {s : St α}
    (hb : OpB s.vok s.aok BV BA v e w c) (hKB : Disjoint K BV) (hK : (Expr.opEq op v e w c).need ⊆ K)
    (hm : ∀ a ∈ K, s.val a = m a) : ∃ s', GStepOk BV K (.opEq op v e w c) m s s' := by
  have hK1 : e.reads ⊆ K := fun a ha => hK (Or.inl ha)
  have hK2 : rng v.val v.size ⊆ K := fun a ha => hK (Or.inr ha)
  have hvB : ∀ a ∈ rng v.val v.size, a ∉ BV := fun a ha => disj_right hb.dV ha
  have hrB : ∀ a ∈ e.reads, a ∉ BV := fun a ha => disj_right hb.pure.dV ha
  have hcsz : c.size = v.size := by rw [View.size, hb.cshape, View.size]
  have hwsz : w.size = v.size := by rw [View.size, hb.wshape, View.size]
  have hvm : ∀ k < v.size, s.val (addr v.val + k) = m (addr v.val + k) := fun k hk => hm _ (hK2 (add_mem_rng hk))
  have hr0 := readCells_eq' hb.accV hvm
  let f0 : ℕ → α := trunc v.size (fun k => m (addr v.val + k))
  let s1 : St α := { s with val := fillRange s.val (addr c.val) c.size f0 }
  have h1o : ∀ a, a ∉ BV → s1.val a = s.val a := fun a ha => fillRange_not_mem fun x => ha (hb.cV x)
  have h1v : ∀ a ∈ K, s1.val a = m a := by
    intro a ha
    rw [← hm a ha]
    exact h1o a (disj_left hKB ha)
  obtain ⟨s2, r, h⟩ := gfeval_ok e m s1 hb.pure.wf hb.pure.wb (hb.pure.dV.mono_left hb.pure.ownV) (fun a ha => h1v a (hK1 ha))
  have hread := h.ref.1 s2 rfl fun _ _ => rfl
  have hr := feval_ref e hb.pure.wf hb.notIf h.run
  have h2v : ∀ a ∈ K, s2.val a = m a := fun a ha => by rw [h.frame a fun x => disj_left hKB ha (hb.pure.ownV x), h1v a ha]
  have hr2 : readCells s2.val s2.vok v.val v.size = some f0 :=
    readCells_eq' (h.vok ▸ hb.accV) fun k hk => h2v _ (hK2 (add_mem_rng hk))
  let g : ℕ → α := fun k => op.fmap (f0 k) (bcast e.shape (trunc e.size (e.exact m)) k)
  let s3 : St α := { s2 with val := fillRange s2.val (addr v.val) v.size g }
  have hg : ∀ k < v.size, g k = op.arith (m (addr v.val + k)) (e.exact m (if e.shape.isScl then 0 else k)) := by
    intro k hk
    show op.fmap _ _ = _
    rw [AOp.fmap_arith, bcast_operand hb.pure.wf.shapeOk hb.shape hk]
    congr 1
    exact trunc_of_lt hk
  have hval : ∀ a, s3.val a = if a ∈ rng v.val v.size then (Expr.opEq op v e w c).exactExec m a else s2.val a := by
    intro a
    show fillRange s2.val (addr v.val) v.size g a = _
    by_cases ha : a ∈ rng v.val v.size
    · rw [if_pos ha]
      obtain ⟨k, hk, rfl⟩ := mem_rng_iff.1 ha
      rw [fillRange_add hk, hg k hk]
      exact (assign_add (m := m) (f := (Expr.opEq op v e w c).exactResult m) hk).symm
    · rw [if_neg ha, fillRange_not_mem ha]
  have hrun : (Expr.opEq op v e w c).feval s = some (s3, .ptr (Expr.opEq op v e w c).view.val) := by
    simp only [Expr.feval, hr0, Option.bind_eq_bind, Option.bind_some]
    rw [assignV_eq hb.caccV (noClash_ptr (by rw [hcsz]; exact hb.dV.mono_left (hcsz ▸ hb.cV)))]
    simp only [Option.bind_some]
    rw [show e.feval _ = _ from h.run]
    simp only [Option.bind_some]
    rw [if_pos (hb.shape.imp id fun x => by rw [x]; exact ⟨rfl, rfl⟩), hr2]
    simp only [Option.bind_some]
    rw [hread]
    simp only [Option.bind_some]
    rw [if_pos (by left; rw [hb.wval, hwsz]; exact ⟨rfl, rfl⟩)]
    rw [assignV_eq (by rw [hb.wval, hwsz]; exact h.vok ▸ hb.accV) (by rw [hb.wval, hwsz, hr]; exact op_noClash hb)]
    simp only [Option.bind_some, hb.wval, hwsz]
    simp [Expr.view, hb.wval]; rfl
  have hfr : ∀ a, a ∈ BV → s3.val a = s2.val a := by
    intro a ha
    rw [hval, if_neg fun x => hvB a x ha]
  refine ⟨s3, hrun, h.adj, h.vok, h.aok, ?_, ?_, ?_, ⟨?_, ?_⟩, ?_, ?_⟩
  · intro a ha
    have haK : a ∈ K := ha.resolve_right fun h => h.elim
    rw [hval]
    by_cases hav : a ∈ rng v.val v.size
    · rw [if_pos hav]
    · rw [if_neg hav, h2v a haK]
      exact (assign_off hav).symm
  · intro a ha hav
    have hav : a ∉ rng v.val v.size := hav
    rw [hval, if_neg hav, h.frame a fun x => ha (hb.pure.ownV x), h1o a ha]
  · intro a ha hn
    rw [hfr a ha, h.frame a fun x => hn (Or.inl x)]
    exact fillRange_not_mem fun x => hn (Or.inr x)
  · refine Expr.Stored.congr e h.stored fun a ha => ?_
    rcases ha with ha | ha
    · rw [merge_in (hb.pure.ownV ha), hfr a (hb.pure.ownV ha)]
    · rw [merge_out (hrB a ha), h2v a (hK1 ha)]
  · intro k hk
    have hk' : k < c.size := hcsz ▸ hk
    have hc := hb.cV (add_mem_rng hk')
    rw [hfr _ hc, h.frame _ (disj_left hb.dcV (add_mem_rng hk'))]
    show fillRange s.val (addr c.val) c.size f0 (addr c.val + k) = _
    rw [fillRange_add hk']
    exact trunc_of_lt hk
  · show accessible s2.vok w.val w.size
    rw [h.vok, hb.wval, hwsz]
    exact hb.accV
  · intro k hk
    have hk' : k < v.size := hwsz ▸ hk
    show s3.val (addr w.val + k) = op.arith _ _
    rw [hb.wval, hval, if_pos (add_mem_rng hk')]
    exact assign_add hk'

theorem gstep_ok {BV BA K : Set ℕ} {x : Expr α} {m : ℕ → α} {s : St α}
    (hb : StmtB s.vok s.aok BV BA x) (hKB : Disjoint K BV) (hK : x.need ⊆ K) (hm : ∀ a ∈ K, s.val a = m a) :
    ∃ s', GStepOk BV K x m s s' := by
  by_cases hs : x.isStmt = false
  · exact gstep_pure hs hb hKB hK hm
  · cases x with
    | eq v e w => exact gstep_eq hb hKB hK hm
    | opEq op v e w c => exact gstep_opEq hb hKB hK hm
    | _ => simp [Expr.isStmt] at hs

/-! ### Backward evaluation -/

open Classical in
/-- the adjoints after the backward evaluation of a statement executed in store `m`, given the adjoints `A` before -/
noncomputable def Expr.gbk : Expr α → (ℕ → α) → (ℕ → α) → (ℕ → α) → ℕ → α
  | .eq v e _, m, seed, A, a =>
      e.gback m (fun k => A (addr v.adj + k) + seed k) a
        (if a ∈ rng v.adj v.size then A a + seed (a - addr v.adj) else A a)
  | .opEq op v e _ _, m, seed, A, a =>
      let y := e.gback m (collapse e.shape v.shape v.size (fun k =>
          op.br (A (addr v.adj + k) + seed k) (m (addr v.val + k)) (e.exact m (if e.shape.isScl then 0 else k)))) a
        (if a ∈ rng v.adj v.size then 0 else A a)
      if a ∈ rng v.adj v.size then
        y + op.bl (A a + seed (a - addr v.adj)) (m (addr v.val + (a - addr v.adj)))
          ((if v.shape.isScl then e.exact m else e.post m) (if e.shape.isScl then 0 else a - addr v.adj))
      else y
  | e, m, seed, A, a => e.gback m seed a (A a)

/-- the values after the backward evaluation of a statement executed in store `m` -/
def Expr.gundo : Expr α → (ℕ → α) → (ℕ → α) → ℕ → α
  | .eq v e _, m, h => if e.isIf then h else assign h v (e.post m)
  | .opEq _ v _ _ _, m, h => assign h v (fun k => m (addr v.val + k))
  | _, _, h => h

/-- Outcome of the backward evaluation of a bound statement that was executed in store `m`. -/
structure GBackOk (BV BA : Set ℕ) (x : Expr α) (m seed : ℕ → α) (s s' : St α) : Prop where
  run : x.beval seed s = some s'
  val : ∀ a, a ∉ BV → s'.val a = x.gundo m s.val a
  frame : ∀ a, a ∈ BV → a ∉ x.lv → s'.val a = s.val a
  vok : s'.vok = s.vok
  aok : s'.aok = s.aok
  adj : ∀ a, a ∉ BA → s'.adj a = x.gbk m seed s.adj a
  post : x.isStmt = false → ∀ k < x.size, s'.val (addr x.view.val + k) = x.post m k

theorem gback_pure {BV BA : Set ℕ} {e : Expr α} {m seed : ℕ → α} {s : St α} (hs : e.isStmt = false)
    (hb : StmtB s.vok s.aok BV BA e) (hc : e.GPC BV m s.val) (hm : ∀ a ∈ e.ment, s.val a = e.exactExec m a) :
    ∃ s', GBackOk BV BA e m seed s s' := by
  obtain ⟨hb, hif, href⟩ := hb.pure hs
  rw [Expr.GPC_pure hs] at hc
  have hment : e.ment = e.reads := by cases e <;> first | rfl | simp [Expr.isStmt] at hs
  have hc' : e.Stored m s.val := by
    refine Expr.Stored.congr e hc fun a ha => ?_
    rcases ha with ha | ha
    · exact (merge_in (hb.ownV ha)).symm
    · rw [merge_out (disj_right hb.dV ha), hm a (hment ▸ ha), hb.wf.exactExec]
  obtain ⟨s', h⟩ := gbeval_ok e m s seed hb.wf hb.wb (hb.dV.mono_left hb.ownV) (hb.dA.mono_left hb.ownA) hc'
  refine ⟨s', h.run, fun a ha => ?_, fun a _ ha => ?_, h.vok, h.aok, fun a ha => ?_, fun _ k hk => ?_⟩
  · rw [h.frame a fun x => ha (hb.ownV x)]
    cases e <;> first | rfl | simp [Expr.isStmt] at hs
  · rw [hb.wf.lv] at ha
    exact h.frame a ha
  · rw [h.adj a fun x => ha (hb.ownA x)]
    cases e <;> first | rfl | simp [Expr.isStmt] at hs
  · have := h.post s' rfl fun _ _ => rfl
    rw [outRef_eq hif, href] at this
    rw [(accessible_of_read this).2 k hk, trunc_of_lt hk]

open Classical in
theorem bevalVar_gadj {v : View} {A seed : ℕ → α} (a : ℕ) :
    fillRange A (addr v.adj) v.size (fun k => trunc v.size (fun k => A (addr v.adj + k)) k + seed k) a =
      if a ∈ rng v.adj v.size then A a + seed (a - addr v.adj) else A a := by
  by_cases ha : a ∈ rng v.adj v.size
  · rw [if_pos ha]
    obtain ⟨k, hk, rfl⟩ := mem_rng_iff.1 ha
    rw [fillRange_add hk, Nat.add_sub_cancel_left]
    congr 1
    exact trunc_of_lt hk
  · rw [if_neg ha, fillRange_not_mem ha]

theorem gback_eq {BV BA : Set ℕ} {v w : View} {e : Expr α} {m seed : ℕ → α} {s : St α}
    (hb : EqB s.vok s.aok BV BA v e w) (hc : (Expr.eq v e w).GPC BV m s.val)
    (hm : ∀ a ∈ (Expr.eq v e w).ment, s.val a = (Expr.eq v e w).exactExec m a) :
    ∃ s', GBackOk BV BA (.eq v e w) m seed s s' := by
  classical
  have hroot : e.valRoot ⊆ rng v.val v.size := by
    rcases hb.root with h | h
    · rw [h.1]; exact Set.empty_subset _
    · exact h.2.2.2.1
  have hrootA : e.adjRoot ⊆ rng v.adj v.size := by
    rcases hb.root with h | h
    · rw [h.2]; exact Set.empty_subset _
    · exact h.2.2.2.2
  have hsz : e.size = v.size := by rw [Expr.size, hb.shape, View.size]
  have hrB : ∀ a ∈ e.reads, a ∉ BV := fun a ha => disj_right (Set.disjoint_union_right.1 hb.dV).1 ha
  have hvB : ∀ a ∈ rng v.val v.size, a ∉ BV := fun a ha => disj_right (Set.disjoint_union_right.1 hb.dV).2 ha
  have hdis : Disjoint e.ownV e.reads :=
    Set.disjoint_union_left.2 ⟨(Set.disjoint_union_right.1 hb.dV).1.mono_left hb.inV, hb.dvr.mono_left hroot⟩
  have hdisA : Disjoint e.ownA e.readsA :=
    Set.disjoint_union_left.2 ⟨(Set.disjoint_union_right.1 hb.dA).1.mono_left hb.inA, hb.dva.mono_left hrootA⟩
  have hc' : e.Stored m s.val := by
    refine Expr.Stored.congr e hc fun a ha => ?_
    rcases ha with ha | ha
    · rcases ha with ha | ha
      · exact (merge_in (hb.inV ha)).symm
      · rw [merge_out (hvB a (hroot ha)), hm a (Or.inr (hroot ha))]
        rfl
    · rw [merge_out (hrB a ha), hm a (Or.inl ha)]
      rfl
  let s1 : St α := { s with adj := fillRange s.adj (addr v.adj) v.size (fun k => trunc v.size (fun k => s.adj (addr v.adj + k)) k + seed k) }
  have h1 : ∀ a, s1.adj a = if a ∈ rng v.adj v.size then s.adj a + seed (a - addr v.adj) else s.adj a := bevalVar_gadj
  let g : ℕ → α := trunc v.size (fun k => s.adj (addr v.adj + k) + seed k)
  have hg : s1.readA v.adj v.size = some g := by
    refine readCells_eq' hb.accA fun k hk => ?_
    rw [h1, if_pos (add_mem_rng hk), Nat.add_sub_cancel_left]
  obtain ⟨s', h⟩ := gbeval_ok e m s1 g hb.wf hb.wb hdis hdisA hc'
  have hgr : e.gback m g = e.gback m (fun k => s.adj (addr v.adj + k) + seed k) :=
    gback_congr m e _ _ hb.wf fun k hk => trunc_of_lt (hsz ▸ hk)
  have hvm : ∀ k < v.size, s.val (addr v.val + k) = e.exact m k := by
    intro k hk
    rw [hm _ (Or.inr (add_mem_rng hk))]
    exact assign_add hk
  refine ⟨s', ?_, fun a ha => ?_, fun a ha hn => ?_, h.vok, h.aok, fun a ha => ?_, fun hx => absurd hx (by simp [Expr.isStmt])⟩
  · simp only [Expr.beval, bevalVar_eq hb.accA, Option.bind_eq_bind, Option.bind_some]
    rw [show St.readA _ _ _ = _ from hg]
    exact h.run
  · show s'.val a = (if e.isIf = true then s.val else assign s.val v (e.post m)) a
    by_cases hif : e.isIf = true
    · rw [if_pos hif]
      refine h.frame a fun x => x.elim (fun x => ha (hb.inV x)) fun x => ?_
      cases e <;> simp [Expr.isIf] at hif
      exact x.elim
    · rw [if_neg hif]
      have hif : e.isIf = false := by simpa using hif
      by_cases hav : a ∈ rng v.val v.size
      · obtain ⟨k, hk, rfl⟩ := mem_rng_iff.1 hav
        rw [assign_add hk]
        rcases hb.root with hr | hr
        · -- the node has no cache of its own: a constant
          have hpe : e.post m = e.exact m := by
            cases e with
            | prodIter es w' =>
              exfalso
              have hmem : addr w'.val + k ∈ (Expr.prodIter es w').valRoot := add_mem_rng (p := w'.val) (n := w'.size) (by
                have : (Expr.prodIter es w').size = w'.size := rfl
                omega)
              rw [hr.1] at hmem
              exact hmem.elim
            | ifElse => simp [Expr.isIf] at hif
            | _ => rfl
          rw [h.frame _ fun x => x.elim (fun x => hvB _ hav (hb.inV x)) fun x => by rw [hr.1] at x; exact x.elim, hpe]
          exact hvm k hk
        · have := h.post s' rfl fun _ _ => rfl
          rw [outRef_eq hif, hr.2.1] at this
          rw [(accessible_of_read this).2 k (hsz ▸ hk), trunc_of_lt (hsz ▸ hk)]
      · rw [assign_off hav]
        exact h.frame a fun x => x.elim (fun x => ha (hb.inV x)) fun x => hav (hroot x)
  · exact h.frame a fun x => x.elim (fun x => hn x) fun x => hvB a (hroot x) ha
  · show _ = e.gback m _ a _
    rw [← hgr, ← h1 a]
    by_cases har : a ∈ e.adjRoot
    · have hav := hrootA har
      rw [gback_support m e g a _ (disj_left hb.dva hav)]
      rcases hb.root with hr | hr
      · rw [hr.2] at har; exact har.elim
      · obtain ⟨k, hk, rfl⟩ := mem_rng_iff.1 hav
        have hs1 : s1.adj (addr v.adj + k) = g k := by
          rw [h1, if_pos (add_mem_rng hk), Nat.add_sub_cancel_left]
          exact (trunc_of_lt (f := fun k => s.adj (addr v.adj + k) + seed k) hk).symm
        have := h.keep hb.notProd k (hsz ▸ hk) (by rw [hr.2.2.1]; exact har) (by rw [hr.2.2.1]; exact hs1)
        rw [hr.2.2.1] at this
        rw [this, hs1]
    · exact h.adj a fun x => x.elim (fun x => ha (hb.inA x)) har

theorem gback_opEq {BV BA : Set ℕ} {op : AOp} {v w c : View} {e : Expr α} {m seed : ℕ → α} {s : St α}
    (hb : OpB s.vok s.aok BV BA v e w c) (hc : (Expr.opEq op v e w c).GPC BV m s.val)
    (hm : ∀ a ∈ (Expr.opEq op v e w c).ment, s.val a = (Expr.opEq op v e w c).exactExec m a) :
    ∃ s', GBackOk BV BA (.opEq op v e w c) m seed s s' := by
  classical
  have hvB : ∀ a ∈ rng v.val v.size, a ∉ BV := fun a ha => disj_right hb.dV ha
  have hrB : ∀ a ∈ e.reads, a ∉ BV := fun a ha => disj_right hb.pure.dV ha
  have hcsz : c.size = v.size := by rw [View.size, hb.cshape, View.size]
  have hcv : Disjoint (rng c.adj c.size) (rng v.adj v.size) := hb.dA.mono_left hb.cA
  -- `var_view_.beval(seed)`
  let s1 : St α := { s with adj := fillRange s.adj (addr v.adj) v.size (fun k => trunc v.size (fun k => s.adj (addr v.adj + k)) k + seed k) }
  have h1 : ∀ a, s1.adj a = if a ∈ rng v.adj v.size then s.adj a + seed (a - addr v.adj) else s.adj a := bevalVar_gadj
  -- restore the old value
  let f0 : ℕ → α := trunc v.size (fun k => m (addr v.val + k))
  have hx0 : readCells s1.val s1.vok c.val c.size = some f0 := by
    rw [hcsz]
    exact readCells_eq' (hcsz ▸ hb.caccV) hc.2
  let s2 : St α := { s1 with val := fillRange s1.val (addr v.val) v.size f0 }
  have hundo : s2.val = (Expr.opEq op v e w c).gundo m s.val := by
    funext a
    show fillRange s.val (addr v.val) v.size f0 a = assign s.val v (fun k => m (addr v.val + k)) a
    by_cases ha : a ∈ rng v.val v.size
    · obtain ⟨k, hk, rfl⟩ := mem_rng_iff.1 ha
      rw [fillRange_add hk, assign_add hk]
      exact trunc_of_lt hk
    · rw [fillRange_not_mem ha, assign_off ha]
  have h2v : ∀ a, s2.val a = if a ∈ rng v.val v.size then m a else s.val a := by
    intro a
    rw [hundo]
    show assign s.val v (fun k => m (addr v.val + k)) a = _
    by_cases ha : a ∈ rng v.val v.size
    · obtain ⟨k, hk, rfl⟩ := mem_rng_iff.1 ha
      rw [assign_add hk, if_pos ha]
    · rw [assign_off ha, if_neg ha]
  -- copy and reset the adjoint
  let g0 : ℕ → α := trunc v.size (fun k => s.adj (addr v.adj + k) + seed k)
  have hg0 : s2.readA v.adj v.size = some g0 := by
    refine readCells_eq' hb.accA fun k hk => ?_
    show s1.adj _ = _
    rw [h1, if_pos (add_mem_rng hk), Nat.add_sub_cancel_left]
  let s3 : St α := { s2 with adj := fillRange s2.adj (addr c.adj) c.size g0 }
  let s4 : St α := { s3 with adj := fillRange s3.adj (addr v.adj) v.size (fun _ => 0) }
  have h4c : ∀ k < c.size, s4.adj (addr c.adj + k) = g0 k := by
    intro k hk
    show fillRange (fillRange s2.adj (addr c.adj) c.size g0) (addr v.adj) v.size (fun _ => 0) (addr c.adj + k) = _
    rw [fillRange_not_mem (disj_left hcv (add_mem_rng hk)), fillRange_add hk]
  have h4v : ∀ a, a ∉ BA → s4.adj a = if a ∈ rng v.adj v.size then 0 else s.adj a := by
    intro a ha
    show fillRange (fillRange s1.adj (addr c.adj) c.size g0) (addr v.adj) v.size (fun _ => 0) a = _
    by_cases hav : a ∈ rng v.adj v.size
    · obtain ⟨k, hk, rfl⟩ := mem_rng_iff.1 hav
      rw [fillRange_add hk, if_pos hav]
    · rw [fillRange_not_mem hav, fillRange_not_mem fun x => ha (hb.cA x), if_neg hav, h1, if_neg hav]
  -- the operand's caches
  have hc' : e.Stored m s4.val := by
    refine Expr.Stored.congr e hc.1 fun a ha => ?_
    show s2.val a = _
    rw [h2v]
    rcases ha with ha | ha
    · have := hb.pure.ownV ha
      rw [merge_in this, if_neg fun x => hvB a x this]
    · rw [merge_out (hrB a ha)]
      by_cases hav : a ∈ rng v.val v.size
      · rw [if_pos hav]
      · rw [if_neg hav, hm a (Or.inl ha)]
        exact assign_off hav
  have hx : readCells s4.val s4.vok v.val v.size = some f0 := by
    refine readCells_eq' hb.accV fun k hk => ?_
    show s2.val _ = _
    rw [h2v, if_pos (add_mem_rng hk)]
  have hy : e.getRef.read s4 e.size = some (trunc e.size (e.exact m)) := ggetRef_read hb.pure.wb hc' hb.notIf
  have hg : s4.readA c.adj c.size = some g0 := by
    have : s4.readA c.adj c.size = some (trunc c.size g0) := readCells_eq' hb.caccA h4c
    rw [this, hcsz, trunc_trunc]
  let y : ℕ → α := trunc e.size (e.exact m)
  let sr : ℕ → α := collapse e.shape v.shape v.size (fun k => op.br (g0 k) (f0 k) (bcast e.shape y k))
  let sl : ℕ → α := fun k => op.bl (g0 k) (f0 k) (bcast e.shape (trunc e.size (if v.shape.isScl then e.exact m else e.post m)) k)
  obtain ⟨s5, h⟩ := gbeval_ok e m s4 sr hb.pure.wf hb.pure.wb (hb.pure.dV.mono_left hb.pure.ownV)
    (hb.pure.dA.mono_left hb.pure.ownA) hc'
  have hgr : e.gback m sr = e.gback m (collapse e.shape v.shape v.size (fun k =>
          op.br (s.adj (addr v.adj + k) + seed k) (m (addr v.val + k)) (e.exact m (if e.shape.isScl then 0 else k)))) := by
    refine gback_congr m e _ _ hb.pure.wf (collapse_same (fun k hk => ?_)
      (operand_size hb.pure.wf.shapeOk hb.vshape (hb.shape.imp id fun x => by rw [x]; exact ⟨rfl, rfl⟩)))
    rw [bcast_operand hb.pure.wf.shapeOk hb.shape hk]
    show op.br (trunc v.size _ k) (trunc v.size _ k) _ = _
    rw [trunc_of_lt hk, trunc_of_lt hk]
  have hg5 : s5.readA c.adj c.size = some g0 := by
    have : s5.readA c.adj c.size = some (trunc c.size g0) := by
      refine readCells_eq' (h.aok ▸ hb.caccA) fun k hk => ?_
      have hca := add_mem_rng (p := c.adj) hk
      rw [h.adj _ (disj_left hb.dcA hca), gback_support m e _ _ _ (disj_left hb.pure.dA (hb.cA hca)), h4c k hk]
    rw [this, hcsz, trunc_trunc]
  have h5v : ∀ a, a ∉ BV → s5.val a = s4.val a := fun a ha => h.frame a fun x => ha (hb.pure.ownV x)
  have hx5 : readCells s5.val s5.vok v.val v.size = some f0 := by
    rw [h.vok, ← hx]
    exact readCells_congr fun a ha => h5v a (hvB a ha)
  have hy5 : e.getRef.read s5 e.size = some (trunc e.size (e.post m)) := by
    rw [← outRef_eq hb.notIf m]
    exact h.post s5 rfl fun _ _ => rfl
  let s6 : St α := { s5 with adj := fillRange s5.adj (addr v.adj) v.size (fun k => trunc v.size (fun k => s5.adj (addr v.adj + k)) k + sl k) }
  have h6 : v.bevalVar sl s5 = some s6 := bevalVar_eq (by rw [h.aok]; exact hb.accA)
  refine ⟨s6, ?_, fun a ha => ?_, fun a ha hn => ?_, h.vok, h.aok, fun a ha => ?_, fun hx => absurd hx (by simp [Expr.isStmt])⟩
  · simp only [Expr.beval, bevalVar_eq hb.accA, Option.bind_eq_bind, Option.bind_some]
    rw [show readCells s.val s.vok c.val c.size = some f0 from hx0]
    simp only [Option.bind_some]
    rw [assignV_eq (s := s1) hb.accV (noClash_ptr (hb.dV.mono_left hb.cV).symm)]
    simp only [Option.bind_some]
    rw [show St.readA _ v.adj v.size = _ from hg0]
    simp only [Option.bind_some]
    rw [writeA_eq (s := s2) hb.caccA]
    simp only [Option.bind_some]
    rw [writeA_eq (s := s3) hb.accA]
    simp only [Option.bind_some]
    rw [show readCells _ _ v.val v.size = some f0 from hx]
    simp only [Option.bind_some]
    rw [show e.getRef.read _ e.size = _ from hy]
    simp only [Option.bind_some]
    rw [show St.readA _ c.adj c.size = _ from hg]
    simp only [Option.bind_some]
    rw [show e.beval _ _ = some s5 from h.run]
    simp only [Option.bind_some]
    by_cases hvs : v.shape.isScl = true
    · rw [if_pos hvs]
      rw [← h6]
      simp only [sl, hvs, if_true]
    · rw [if_neg hvs, hx5]
      simp only [Option.bind_some]
      rw [hy5]
      simp only [Option.bind_some]
      rw [hg5, ← h6]
      simp only [sl, hvs]
      rfl
  · show s5.val a = _
    rw [h5v a ha, ← hundo]
  · show s5.val a = s.val a
    rw [h.frame a fun x => hn (Or.inl x)]
    show s2.val a = _
    rw [h2v, if_neg fun x => hvB a x ha]
  · show fillRange s5.adj (addr v.adj) v.size (fun k => trunc v.size (fun k => s5.adj (addr v.adj + k)) k + sl k) a = _
    rw [bevalVar_gadj]
    simp only [Expr.gbk]
    rw [← hgr, h.adj a fun x => ha (hb.pure.ownA x), h4v a ha]
    by_cases hav : a ∈ rng v.adj v.size
    · simp only [if_pos hav]
      obtain ⟨k, hk, rfl⟩ := mem_rng_iff.1 hav
      rw [Nat.add_sub_cancel_left]
      have : sl k = op.bl (s.adj (addr v.adj + k) + seed k) (m (addr v.val + k))
          ((if v.shape.isScl then e.exact m else e.post m) (if e.shape.isScl then 0 else k)) := by
        show op.bl (trunc v.size _ k) (trunc v.size _ k) _ = _
        rw [bcast_operand hb.pure.wf.shapeOk hb.shape hk, trunc_of_lt hk, trunc_of_lt hk]
      rw [this]
    · simp only [if_neg hav]

theorem gback_ok {BV BA : Set ℕ} {x : Expr α} {m seed : ℕ → α} {s : St α}
    (hb : StmtB s.vok s.aok BV BA x) (hc : x.GPC BV m s.val) (hm : ∀ a ∈ x.ment, s.val a = x.exactExec m a) :
    ∃ s', GBackOk BV BA x m seed s s' := by
  by_cases hs : x.isStmt = false
  · exact gback_pure hs hb hc hm
  · cases x with
    | eq v e w => exact gback_eq hb hc hm
    | opEq op v e w c => exact gback_opEq hb hc hm
    | _ => simp [Expr.isStmt] at hs

end FastAD
