import Verif.Proof.StmtDefs

/-!
# Forward and backward evaluation of bound statements
-/

namespace FastAD

variable [HasInf ℝ] [LinAlg ℝ]
set_option linter.unusedSectionVars false

/-! ### Pure statements -/

theorem Expr.WF.exec {e : Expr ℝ} (h : e.WF) (m : ℕ → ℝ) : e.exec m = m := by
  cases e <;> first | rfl | exact h.elim
theorem Expr.WF.result {e : Expr ℝ} (h : e.WF) (m : ℕ → ℝ) : e.result m = e.denote m := by
  cases e <;> first | rfl | exact h.elim
/-! ### Bound statements -/

/-- the caches left behind by the forward evaluation of a statement in store `m` -/
def Expr.PC (BV : Set ℕ) : Expr ℝ → (ℕ → ℝ) → (ℕ → ℝ) → Prop
  | .eq v e _, m, h => e.Cached m (merge BV h (assign m v (e.denote m)))
  | .opEq _ v e _ c, m, h => e.Cached m (merge BV h m) ∧ ∀ k < v.size, h (addr c.val + k) = m (addr v.val + k)
  | e, m, h => e.Cached m (merge BV h m)

theorem Expr.PC_pure {BV : Set ℕ} {e : Expr ℝ} {m h : ℕ → ℝ} (hs : e.isStmt = false) : e.PC BV m h = e.Cached m (merge BV h m) := by
  cases e <;> first | rfl | simp [Expr.isStmt] at hs

theorem AOp.fmap_eq (op : AOp) (x y : ℝ) : op.fmap x y = op.real x y := by cases op <;> rfl

/-- Outcome of the forward evaluation of a bound statement in store `m`. -/
structure StepOk (BV : Set ℕ) (x : Expr ℝ) (m : ℕ → ℝ) (s s' : St ℝ) : Prop where
  run : x.feval s = some (s', .ptr x.view.val)
  adj : s'.adj = s.adj
  vok : s'.vok = s.vok
  aok : s'.aok = s.aok
  store : ∀ a, a ∉ BV → s'.val a = x.exec m a
  frame : ∀ a, a ∈ BV → a ∉ x.lv → s'.val a = s.val a
  cached : x.PC BV m s'.val
  acc : accessible s'.vok x.view.val x.size
  value : ∀ k < x.size, s'.val (addr x.view.val + k) = x.result m k

theorem step_pure {BV BA : Set ℕ} {e : Expr ℝ} {m : ℕ → ℝ} {s : St ℝ} (hs : e.isStmt = false)
    (hb : StmtB s.vok s.aok BV BA e) (hm : ∀ a, a ∉ BV → s.val a = m a) : ∃ s', StepOk BV e m s s' := by
  obtain ⟨hb, hif, href⟩ := hb.pure hs
  obtain ⟨s', r, h⟩ := feval_ok e m s hb.wf hb.wb (hb.dV.mono_left hb.ownV) (fun a ha => hm a (disj_right hb.dV ha))
  have hr := feval_ref e hb.wf hif h.run
  rw [href] at hr
  subst hr
  have hread := accessible_of_read (h.ref.1 s' rfl fun _ _ => rfl)
  refine ⟨s', h.run, h.adj, h.vok, h.aok, ?_, ?_, ?_, hread.1, ?_⟩
  · intro a ha
    rw [h.frame a (fun x => ha (hb.ownV x)), hb.wf.exec, hm a ha]
  · intro a _ ha
    rw [hb.wf.lv] at ha
    exact h.frame a ha
  · rw [Expr.PC_pure hs]
    refine Expr.Cached.congr e h.cached fun a ha => ?_
    rcases ha with ha | ha
    · exact merge_in (hb.ownV ha)
    · have h0 := disj_right hb.dV ha
      rw [merge_out h0, h.frame a fun x => h0 (hb.ownV x), hm a h0]
  · intro k hk
    rw [hread.2 k hk, trunc_of_lt hk, hb.wf.result]

open Classical in
theorem step_eq {BV BA : Set ℕ} {v w : View} {e : Expr ℝ} {m : ℕ → ℝ} {s : St ℝ}
    (hb : EqB s.vok s.aok BV BA v e w) (hm : ∀ a, a ∉ BV → s.val a = m a) : ∃ s', StepOk BV (.eq v e w) m s s' := by
  have hroot : e.valRoot ⊆ rng v.val v.size := by
    rcases hb.root with h | h
    · rw [h.1]; exact Set.empty_subset _
    · exact h.2.2.2.1
  have hdis : Disjoint e.ownV e.reads :=
    Set.disjoint_union_left.2 ⟨(Set.disjoint_union_right.1 hb.dV).1.mono_left hb.inV, hb.dvr.mono_left hroot⟩
  have hrB : ∀ a ∈ e.reads, a ∉ BV := fun a ha => disj_right (Set.disjoint_union_right.1 hb.dV).1 ha
  have hvB : ∀ a ∈ rng v.val v.size, a ∉ BV := fun a ha => disj_right (Set.disjoint_union_right.1 hb.dV).2 ha
  obtain ⟨s1, r, h⟩ := feval_ok e m s hb.wf hb.wb hdis (fun a ha => hm a (hrB a ha))
  have hread := h.ref.1 s1 rfl fun _ _ => rfl
  have hsz : e.size = v.size := by rw [Expr.size, hb.shape, View.size]
  have hwsz : w.size = v.size := by rw [View.size, hb.wshape, View.size]
  have hclash : noClash v.val v.size r e.size := by
    rcases hb.root with hr | hr
    · refine h.ref.2 _ _ (Set.disjoint_union_right.2 ⟨?_, hb.dvr⟩)
      rw [Expr.ownV, hr.1, Set.union_empty]
      exact ((Set.disjoint_union_right.1 hb.dV).2.mono_left hb.inV).symm
    · rw [feval_ref e hb.wf hr.1 h.run, hr.2.1]
      exact Or.inl ⟨rfl, hsz⟩
  let f : ℕ → ℝ := trunc e.size (e.denote m)
  let s2 : St ℝ := { s1 with val := fillRange s1.val (addr v.val) v.size f }
  let s3 : St ℝ := { s2 with val := fillRange s2.val (addr v.val) v.size f }
  have hval : ∀ a, s3.val a = if a ∈ rng v.val v.size then e.denote m (a - addr v.val) else s1.val a := by
    intro a
    show fillRange (fillRange s1.val (addr v.val) v.size f) (addr v.val) v.size f a = _
    by_cases ha : a ∈ rng v.val v.size
    · rw [if_pos ha]
      obtain ⟨k, hk, rfl⟩ := mem_rng_iff.1 ha
      rw [fillRange_add hk, Nat.add_sub_cancel_left]
      exact trunc_of_lt (hsz ▸ hk)
    · rw [if_neg ha, fillRange_not_mem ha, fillRange_not_mem ha]
  have hrun : (Expr.eq v e w).feval s = some (s3, .ptr (Expr.eq v e w).view.val) := by
    simp only [Expr.feval, h.run, Option.bind_eq_bind, Option.bind_some]
    rw [if_pos (by rw [hb.shape]; exact ⟨rfl, rfl⟩), hread]
    simp only [Option.bind_some]
    rw [assignV_eq (h.vok ▸ hb.accV) hclash]
    simp only [Option.bind_some]
    rw [assignV_eq (s := s2) (by rw [hb.wval, hwsz]; exact h.vok ▸ hb.accV) (by left; rw [hb.wval, hwsz]; exact ⟨rfl, rfl⟩)]
    simp only [Option.bind_some, hb.wval, hwsz]
    simp [Expr.view, hb.wval]; rfl
  have hsame : ∀ a ∈ e.ownV ∪ e.reads, s3.val a = s1.val a := by
    intro a ha
    rw [hval]
    by_cases hav : a ∈ rng v.val v.size
    · rcases ha with ha | ha
      · rcases ha with ha | ha
        · exact absurd (hb.inV ha) (hvB a hav)
        · rcases hb.root with hr | hr
          · rw [hr.1] at ha; exact ha.elim
          · rw [if_pos hav]
            have h2 := hread
            rw [feval_ref e hb.wf hr.1 h.run, hr.2.1] at h2
            obtain ⟨k, hk, rfl⟩ := mem_rng_iff.1 hav
            rw [(accessible_of_read h2).2 k (hsz ▸ hk), trunc_of_lt (hsz ▸ hk), Nat.add_sub_cancel_left]
      · exact absurd ha (disj_left hb.dvr hav)
    · rw [if_neg hav]
  refine ⟨s3, hrun, h.adj, h.vok, h.aok, ?_, ?_, ?_, ?_, ?_⟩
  · intro a ha
    rw [hval]
    by_cases hav : a ∈ rng v.val v.size
    · rw [if_pos hav]
      obtain ⟨k, hk, rfl⟩ := mem_rng_iff.1 hav
      rw [Nat.add_sub_cancel_left]
      exact (assign_add hk).symm
    · rw [if_neg hav, h.frame a (fun x => x.elim (fun x => ha (hb.inV x)) fun x => hav (hroot x)), hm a ha]
      exact (assign_off hav).symm
  · intro a ha hn
    have hav : a ∉ rng v.val v.size := fun x => hvB a x ha
    rw [hval, if_neg hav]
    exact h.frame a fun x => x.elim (fun x => hn x) fun x => hav (hroot x)
  · show e.Cached m _
    refine Expr.Cached.congr e (Expr.Cached.congr e h.cached hsame) fun a ha => ?_
    rcases ha with ha | ha
    · rcases ha with ha | ha
      · exact merge_in (hb.inV ha)
      · have hav := hroot ha
        rw [merge_out (hvB a hav), hval, if_pos hav]
        obtain ⟨k, hk, rfl⟩ := mem_rng_iff.1 hav
        rw [assign_add hk, Nat.add_sub_cancel_left]
    · have h0 := hrB a ha
      have hav : a ∉ rng v.val v.size := disj_right hb.dvr ha
      rw [merge_out h0, hval, if_neg hav, assign_off hav, h.frame a (fun x => disj_left hdis x ha), hm a h0]
  · show accessible s1.vok w.val w.size
    rw [h.vok, hb.wval, hwsz]
    exact hb.accV
  · intro k hk
    have hk' : k < v.size := hwsz ▸ hk
    show s3.val (addr w.val + k) = e.denote m k
    rw [hb.wval, hval, if_pos (add_mem_rng hk'), Nat.add_sub_cancel_left]

open Classical in
theorem step_opEq {BV BA : Set ℕ} {op : AOp} {v w c : View} {e : Expr ℝ} {m : ℕ → ℝ} {s : St ℝ}
    (hb : OpB s.vok s.aok BV BA v e w c) (hm : ∀ a, a ∉ BV → s.val a = m a) : ∃ s', StepOk BV (.opEq op v e w c) m s s' := by
  have hvB : ∀ a ∈ rng v.val v.size, a ∉ BV := fun a ha => disj_right hb.dV ha
  have hrB : ∀ a ∈ e.reads, a ∉ BV := fun a ha => disj_right hb.pure.dV ha
  have hcsz : c.size = v.size := by rw [View.size, hb.cshape, View.size]
  have hwsz : w.size = v.size := by rw [View.size, hb.wshape, View.size]
  have hvm : ∀ k < v.size, s.val (addr v.val + k) = m (addr v.val + k) := fun k hk => hm _ (hvB _ (add_mem_rng hk))
  have hr0 := readCells_eq' hb.accV hvm
  let f0 : ℕ → ℝ := trunc v.size (fun k => m (addr v.val + k))
  let s1 : St ℝ := { s with val := fillRange s.val (addr c.val) c.size f0 }
  have h1v : ∀ a, a ∉ BV → s1.val a = m a := by
    intro a ha
    rw [← hm a ha]
    exact fillRange_not_mem fun x => ha (hb.cV x)
  obtain ⟨s2, r, h⟩ := feval_ok e m s1 hb.pure.wf hb.pure.wb (hb.pure.dV.mono_left hb.pure.ownV) (fun a ha => h1v a (hrB a ha))
  have hread := h.ref.1 s2 rfl fun _ _ => rfl
  have hr := feval_ref e hb.pure.wf hb.notIf h.run
  have h2v : ∀ a, a ∉ BV → s2.val a = m a := fun a ha => by rw [h.frame a fun x => ha (hb.pure.ownV x), h1v a ha]
  have hr2 : readCells s2.val s2.vok v.val v.size = some f0 :=
    readCells_eq' (h.vok ▸ hb.accV) fun k hk => h2v _ (hvB _ (add_mem_rng hk))
  let g : ℕ → ℝ := fun k => op.fmap (f0 k) (bcast e.shape (trunc e.size (e.denote m)) k)
  let s3 : St ℝ := { s2 with val := fillRange s2.val (addr v.val) v.size g }
  have hg : ∀ k < v.size, g k = op.real (m (addr v.val + k)) (e.denote m (if e.shape.isScl then 0 else k)) := by
    intro k hk
    show op.fmap _ _ = _
    rw [AOp.fmap_eq, bcast_operand hb.pure.wf.shapeOk hb.shape hk]
    congr 1
    exact trunc_of_lt hk
  have hval : ∀ a, s3.val a = if a ∈ rng v.val v.size then (Expr.opEq op v e w c).exec m a else s2.val a := by
    intro a
    show fillRange s2.val (addr v.val) v.size g a = _
    by_cases ha : a ∈ rng v.val v.size
    · rw [if_pos ha]
      obtain ⟨k, hk, rfl⟩ := mem_rng_iff.1 ha
      rw [fillRange_add hk, hg k hk, Expr.exec, assign_add hk]
    · rw [if_neg ha, fillRange_not_mem ha]
  have hrun : (Expr.opEq op v e w c).feval s = some (s3, .ptr (Expr.opEq op v e w c).view.val) := by
    simp only [Expr.feval, hr0, Option.bind_eq_bind, Option.bind_some]
    rw [assignV_eq hb.caccV (noClash_ptr (by rw [hcsz]; exact hb.dV.mono_left (hcsz ▸ hb.cV)))]
    simp only [Option.bind_some]
    rw [show e.feval _ = _ from h.run]
    simp only [Option.bind_some]
    rw [if_pos (hb.shape.imp id fun x => by rw [x]; exact ⟨rfl, rfl⟩), hr2]
    simp only [Option.bind_some]
    rw [hread]
    simp only [Option.bind_some]
    rw [if_pos (by left; rw [hb.wval, hwsz]; exact ⟨rfl, rfl⟩)]
    rw [assignV_eq (by rw [hb.wval, hwsz]; exact h.vok ▸ hb.accV) (by rw [hb.wval, hwsz, hr]; exact op_noClash hb)]
    simp only [Option.bind_some, hb.wval, hwsz]
    simp [Expr.view, hb.wval]; rfl
  have hfr : ∀ a, a ∈ BV → s3.val a = s2.val a := by
    intro a ha
    rw [hval, if_neg fun x => hvB a x ha]
  refine ⟨s3, hrun, h.adj, h.vok, h.aok, ?_, ?_, ⟨?_, ?_⟩, ?_, ?_⟩
  · intro a ha
    rw [hval]
    by_cases hav : a ∈ rng v.val v.size
    · rw [if_pos hav]
    · rw [if_neg hav, h2v a ha]
      exact (assign_off hav).symm
  · intro a ha hn
    rw [hfr a ha, h.frame a fun x => hn (Or.inl x)]
    exact fillRange_not_mem fun x => hn (Or.inr x)
  · refine Expr.Cached.congr e h.cached fun a ha => ?_
    rcases ha with ha | ha
    · rw [merge_in (hb.pure.ownV ha), hfr a (hb.pure.ownV ha)]
    · rw [merge_out (hrB a ha), h2v a (hrB a ha)]
  · intro k hk
    have hk' : k < c.size := hcsz ▸ hk
    have hc := hb.cV (add_mem_rng hk')
    rw [hfr _ hc, h.frame _ (disj_left hb.dcV (add_mem_rng hk'))]
    show fillRange s.val (addr c.val) c.size f0 (addr c.val + k) = _
    rw [fillRange_add hk']
    exact trunc_of_lt hk
  · show accessible s2.vok w.val w.size
    rw [h.vok, hb.wval, hwsz]
    exact hb.accV
  · intro k hk
    have hk' : k < v.size := hwsz ▸ hk
    show s3.val (addr w.val + k) = op.real _ _
    rw [hb.wval, hval, if_pos (add_mem_rng hk')]
    exact assign_add hk'

theorem step_ok {BV BA : Set ℕ} {x : Expr ℝ} {m : ℕ → ℝ} {s : St ℝ}
    (hb : StmtB s.vok s.aok BV BA x) (hm : ∀ a, a ∉ BV → s.val a = m a) : ∃ s', StepOk BV x m s s' := by
  by_cases hs : x.isStmt = false
  · exact step_pure hs hb hm
  · cases x with
    | eq v e w => exact step_eq hb hm
    | opEq op v e w c => exact step_opEq hb hm
    | _ => simp [Expr.isStmt] at hs

/-! ### Backward evaluation -/

open Classical in
/-- the adjoints after the backward evaluation of a statement executed in store `m`, given the adjoints `A` before -/
noncomputable def Expr.back : Expr ℝ → (ℕ → ℝ) → (ℕ → ℝ) → (ℕ → ℝ) → ℕ → ℝ
  | .eq v e _, m, seed, A, a =>
      (A a + if a ∈ rng v.adj v.size then seed (a - addr v.adj) else 0) +
        e.grad m (fun k => A (addr v.adj + k) + seed k) a
  | .opEq op v e _ _, m, seed, A, a =>
      (if a ∈ rng v.adj v.size then
        op.bl (A a + seed (a - addr v.adj)) (m (addr v.val + (a - addr v.adj)))
          (e.denote m (if e.shape.isScl then 0 else a - addr v.adj)) else A a) +
        e.grad m (collapse e.shape v.shape v.size (fun k =>
          op.br (A (addr v.adj + k) + seed k) (m (addr v.val + k)) (e.denote m (if e.shape.isScl then 0 else k)))) a
  | e, m, seed, A, a => A a + e.grad m seed a

/-- Outcome of the backward evaluation of a bound statement that was executed in store `m`. -/
structure BackOk (BA : Set ℕ) (x : Expr ℝ) (m seed : ℕ → ℝ) (s s' : St ℝ) : Prop where
  run : x.beval seed s = some s'
  val : s'.val = x.undo m s.val
  vok : s'.vok = s.vok
  aok : s'.aok = s.aok
  adj : ∀ a, a ∉ BA → s'.adj a = x.back m seed s.adj a

theorem back_pure {BV BA : Set ℕ} {e : Expr ℝ} {m seed : ℕ → ℝ} {s : St ℝ} (hs : e.isStmt = false)
    (hb : StmtB s.vok s.aok BV BA e) (hc : e.PC BV m s.val) (hm : ∀ a ∈ e.ment, s.val a = e.exec m a) :
    ∃ s', BackOk BA e m seed s s' := by
  obtain ⟨hb, hif, href⟩ := hb.pure hs
  rw [Expr.PC_pure hs] at hc
  have hment : e.ment = e.reads := by cases e <;> first | rfl | simp [Expr.isStmt] at hs
  have hc' : e.Cached m s.val := by
    refine Expr.Cached.congr e hc fun a ha => ?_
    rcases ha with ha | ha
    · exact (merge_in (hb.ownV ha)).symm
    · rw [merge_out (disj_right hb.dV ha), hm a (hment ▸ ha), hb.wf.exec]
  obtain ⟨s', h⟩ := beval_ok e m s seed hb.wf hb.wb (hb.dV.mono_left hb.ownV) (hb.dA.mono_left hb.ownA) hc'
  refine ⟨s', h.run, ?_, h.vok, h.aok, fun a ha => ?_⟩
  · rw [h.val]
    cases e <;> first | rfl | simp [Expr.isStmt] at hs
  · rw [h.adj a fun x => ha (hb.ownA x)]
    cases e <;> first | rfl | simp [Expr.isStmt] at hs

open Classical in
theorem bevalVar_adj {v : View} {A seed : ℕ → ℝ} (a : ℕ) :
    fillRange A (addr v.adj) v.size (fun k => trunc v.size (fun k => A (addr v.adj + k)) k + seed k) a =
      A a + if a ∈ rng v.adj v.size then seed (a - addr v.adj) else 0 := by
  by_cases ha : a ∈ rng v.adj v.size
  · rw [if_pos ha]
    obtain ⟨k, hk, rfl⟩ := mem_rng_iff.1 ha
    rw [fillRange_add hk, Nat.add_sub_cancel_left]
    congr 1
    exact trunc_of_lt hk
  · rw [if_neg ha, fillRange_not_mem ha, add_zero]

theorem back_eq {BV BA : Set ℕ} {v w : View} {e : Expr ℝ} {m seed : ℕ → ℝ} {s : St ℝ}
    (hb : EqB s.vok s.aok BV BA v e w) (hc : (Expr.eq v e w).PC BV m s.val)
    (hm : ∀ a ∈ (Expr.eq v e w).ment, s.val a = (Expr.eq v e w).exec m a) :
    ∃ s', BackOk BA (.eq v e w) m seed s s' := by
  classical
  have hroot : e.valRoot ⊆ rng v.val v.size := by
    rcases hb.root with h | h
    · rw [h.1]; exact Set.empty_subset _
    · exact h.2.2.2.1
  have hrootA : e.adjRoot ⊆ rng v.adj v.size := by
    rcases hb.root with h | h
    · rw [h.2]; exact Set.empty_subset _
    · exact h.2.2.2.2
  have hsz : e.size = v.size := by rw [Expr.size, hb.shape, View.size]
  have hrB : ∀ a ∈ e.reads, a ∉ BV := fun a ha => disj_right (Set.disjoint_union_right.1 hb.dV).1 ha
  have hvB : ∀ a ∈ rng v.val v.size, a ∉ BV := fun a ha => disj_right (Set.disjoint_union_right.1 hb.dV).2 ha
  have hdis : Disjoint e.ownV e.reads :=
    Set.disjoint_union_left.2 ⟨(Set.disjoint_union_right.1 hb.dV).1.mono_left hb.inV, hb.dvr.mono_left hroot⟩
  have hdisA : Disjoint e.ownA e.readsA :=
    Set.disjoint_union_left.2 ⟨(Set.disjoint_union_right.1 hb.dA).1.mono_left hb.inA, hb.dva.mono_left hrootA⟩
  have hc' : e.Cached m s.val := by
    refine Expr.Cached.congr e hc fun a ha => ?_
    rcases ha with ha | ha
    · rcases ha with ha | ha
      · exact (merge_in (hb.inV ha)).symm
      · rw [merge_out (hvB a (hroot ha)), hm a (Or.inr (hroot ha))]
        rfl
    · rw [merge_out (hrB a ha), hm a (Or.inl ha)]
      rfl
  let s1 : St ℝ := { s with adj := fillRange s.adj (addr v.adj) v.size (fun k => trunc v.size (fun k => s.adj (addr v.adj + k)) k + seed k) }
  have h1 : ∀ a, s1.adj a = s.adj a + if a ∈ rng v.adj v.size then seed (a - addr v.adj) else 0 := bevalVar_adj
  let g : ℕ → ℝ := trunc v.size (fun k => s.adj (addr v.adj + k) + seed k)
  have hg : s1.readA v.adj v.size = some g := by
    refine readCells_eq' hb.accA fun k hk => ?_
    rw [h1, if_pos (add_mem_rng hk), Nat.add_sub_cancel_left]
  obtain ⟨s', h⟩ := beval_ok e m s1 g hb.wf hb.wb hdis hdisA hc'
  have hgr : e.grad m g = e.grad m (fun k => s.adj (addr v.adj + k) + seed k) :=
    grad_congr m e _ _ hb.wf fun k hk => trunc_of_lt (hsz ▸ hk)
  refine ⟨s', ?_, h.val, h.vok, h.aok, fun a ha => ?_⟩
  · simp only [Expr.beval, bevalVar_eq hb.accA, Option.bind_eq_bind, Option.bind_some]
    rw [show St.readA _ _ _ = _ from hg]
    exact h.run
  · show _ = (_ + _) + _
    rw [← hgr, ← h1 a]
    by_cases har : a ∈ e.adjRoot
    · have hav := hrootA har
      rw [grad_support m e g a (disj_left hb.dva hav), add_zero]
      rcases hb.root with hr | hr
      · rw [hr.2] at har; exact har.elim
      · obtain ⟨k, hk, rfl⟩ := mem_rng_iff.1 hav
        have hs1 : s1.adj (addr v.adj + k) = g k := by
          rw [h1, if_pos (add_mem_rng hk), Nat.add_sub_cancel_left]
          exact (trunc_of_lt (f := fun k => s.adj (addr v.adj + k) + seed k) hk).symm
        have := h.keep hb.notProd k (hsz ▸ hk) (by rw [hr.2.2.1]; exact har) (by rw [hr.2.2.1]; exact hs1)
        rw [hr.2.2.1] at this
        rw [this, hs1]
    · exact h.adj a fun x => x.elim (fun x => ha (hb.inA x)) har

theorem back_opEq {BV BA : Set ℕ} {op : AOp} {v w c : View} {e : Expr ℝ} {m seed : ℕ → ℝ} {s : St ℝ}
    (hb : OpB s.vok s.aok BV BA v e w c) (hc : (Expr.opEq op v e w c).PC BV m s.val)
    (hm : ∀ a ∈ (Expr.opEq op v e w c).ment, s.val a = (Expr.opEq op v e w c).exec m a) :
    ∃ s', BackOk BA (.opEq op v e w c) m seed s s' := by
  classical
  have hvB : ∀ a ∈ rng v.val v.size, a ∉ BV := fun a ha => disj_right hb.dV ha
  have hrB : ∀ a ∈ e.reads, a ∉ BV := fun a ha => disj_right hb.pure.dV ha
  have hcsz : c.size = v.size := by rw [View.size, hb.cshape, View.size]
  have hcv : Disjoint (rng c.adj c.size) (rng v.adj v.size) := hb.dA.mono_left hb.cA
  -- `var_view_.beval(seed)`
  let s1 : St ℝ := { s with adj := fillRange s.adj (addr v.adj) v.size (fun k => trunc v.size (fun k => s.adj (addr v.adj + k)) k + seed k) }
  have h1 : ∀ a, s1.adj a = s.adj a + if a ∈ rng v.adj v.size then seed (a - addr v.adj) else 0 := bevalVar_adj
  -- restore the old value
  let f0 : ℕ → ℝ := trunc v.size (fun k => m (addr v.val + k))
  have hx0 : readCells s1.val s1.vok c.val c.size = some f0 := by
    rw [hcsz]
    exact readCells_eq' (hcsz ▸ hb.caccV) hc.2
  let s2 : St ℝ := { s1 with val := fillRange s1.val (addr v.val) v.size f0 }
  have hundo : s2.val = (Expr.opEq op v e w c).undo m s.val := by
    funext a
    show fillRange s.val (addr v.val) v.size f0 a = assign s.val v (fun k => m (addr v.val + k)) a
    by_cases ha : a ∈ rng v.val v.size
    · obtain ⟨k, hk, rfl⟩ := mem_rng_iff.1 ha
      rw [fillRange_add hk, assign_add hk]
      exact trunc_of_lt hk
    · rw [fillRange_not_mem ha, assign_off ha]
  have h2v : ∀ a, s2.val a = if a ∈ rng v.val v.size then m a else s.val a := by
    intro a
    rw [hundo]
    show assign s.val v (fun k => m (addr v.val + k)) a = _
    by_cases ha : a ∈ rng v.val v.size
    · obtain ⟨k, hk, rfl⟩ := mem_rng_iff.1 ha
      rw [assign_add hk, if_pos ha]
    · rw [assign_off ha, if_neg ha]
  -- copy and reset the adjoint
  let g0 : ℕ → ℝ := trunc v.size (fun k => s.adj (addr v.adj + k) + seed k)
  have hg0 : s2.readA v.adj v.size = some g0 := by
    refine readCells_eq' hb.accA fun k hk => ?_
    show s1.adj _ = _
    rw [h1, if_pos (add_mem_rng hk), Nat.add_sub_cancel_left]
  let s3 : St ℝ := { s2 with adj := fillRange s2.adj (addr c.adj) c.size g0 }
  let s4 : St ℝ := { s3 with adj := fillRange s3.adj (addr v.adj) v.size (fun _ => 0) }
  have h4c : ∀ k < c.size, s4.adj (addr c.adj + k) = g0 k := by
    intro k hk
    show fillRange (fillRange s2.adj (addr c.adj) c.size g0) (addr v.adj) v.size (fun _ => 0) (addr c.adj + k) = _
    rw [fillRange_not_mem (disj_left hcv (add_mem_rng hk)), fillRange_add hk]
  have h4v : ∀ a, a ∉ BA → s4.adj a = if a ∈ rng v.adj v.size then 0 else s.adj a := by
    intro a ha
    show fillRange (fillRange s1.adj (addr c.adj) c.size g0) (addr v.adj) v.size (fun _ => 0) a = _
    by_cases hav : a ∈ rng v.adj v.size
    · obtain ⟨k, hk, rfl⟩ := mem_rng_iff.1 hav
      rw [fillRange_add hk, if_pos hav]
    · rw [fillRange_not_mem hav, fillRange_not_mem fun x => ha (hb.cA x), if_neg hav, h1, if_neg hav, add_zero]
  -- the operand's caches
  have hc' : e.Cached m s4.val := by
    refine Expr.Cached.congr e hc.1 fun a ha => ?_
    show s2.val a = _
    rw [h2v]
    rcases ha with ha | ha
    · have := hb.pure.ownV ha
      rw [merge_in this, if_neg fun x => hvB a x this]
    · rw [merge_out (hrB a ha)]
      by_cases hav : a ∈ rng v.val v.size
      · rw [if_pos hav]
      · rw [if_neg hav, hm a (Or.inl ha)]
        exact assign_off hav
  have hx : readCells s4.val s4.vok v.val v.size = some f0 := by
    refine readCells_eq' hb.accV fun k hk => ?_
    show s2.val _ = _
    rw [h2v, if_pos (add_mem_rng hk)]
  have hy : e.getRef.read s4 e.size = some (trunc e.size (e.denote m)) := getRef_read hb.pure.wf hb.pure.wb hc' hb.notIf
  have hg : s4.readA c.adj c.size = some g0 := by
    have : s4.readA c.adj c.size = some (trunc c.size g0) := readCells_eq' hb.caccA h4c
    rw [this, hcsz, trunc_trunc]
  let y : ℕ → ℝ := trunc e.size (e.denote m)
  let sr : ℕ → ℝ := collapse e.shape v.shape v.size (fun k => op.br (g0 k) (f0 k) (bcast e.shape y k))
  let sl : ℕ → ℝ := fun k => op.bl (g0 k) (f0 k) (bcast e.shape y k)
  obtain ⟨s5, h⟩ := beval_ok e m s4 sr hb.pure.wf hb.pure.wb (hb.pure.dV.mono_left hb.pure.ownV)
    (hb.pure.dA.mono_left hb.pure.ownA) hc'
  have hgr : e.grad m sr = e.grad m (collapse e.shape v.shape v.size (fun k =>
          op.br (s.adj (addr v.adj + k) + seed k) (m (addr v.val + k)) (e.denote m (if e.shape.isScl then 0 else k)))) := by
    refine grad_congr m e _ _ hb.pure.wf (collapse_congr (fun k hk => ?_)
      (operand_size hb.pure.wf.shapeOk hb.vshape (hb.shape.imp id fun x => by rw [x]; exact ⟨rfl, rfl⟩)))
    rw [bcast_operand hb.pure.wf.shapeOk hb.shape hk]
    show op.br (trunc v.size _ k) (trunc v.size _ k) _ = _
    rw [trunc_of_lt hk, trunc_of_lt hk]
  have hg5 : s5.readA c.adj c.size = some g0 := by
    have : s5.readA c.adj c.size = some (trunc c.size g0) := by
      refine readCells_eq' (h.aok ▸ hb.caccA) fun k hk => ?_
      have hca := add_mem_rng (p := c.adj) hk
      rw [h.adj _ (disj_left hb.dcA hca), grad_support m e _ _ (disj_left hb.pure.dA (hb.cA hca)), add_zero, h4c k hk]
    rw [this, hcsz, trunc_trunc]
  have hx5 : readCells s5.val s5.vok v.val v.size = some f0 := by rw [h.val, h.vok]; exact hx
  have hy5 : e.getRef.read s5 e.size = some (trunc e.size (e.denote m)) :=
    getRef_read hb.pure.wf (by rw [h.vok, h.aok]; exact hb.pure.wb) (by rw [h.val]; exact hc') hb.notIf
  let s6 : St ℝ := { s5 with adj := fillRange s5.adj (addr v.adj) v.size (fun k => trunc v.size (fun k => s5.adj (addr v.adj + k)) k + sl k) }
  have h6 : v.bevalVar sl s5 = some s6 := bevalVar_eq (by rw [h.aok]; exact hb.accA)
  refine ⟨s6, ?_, h.val.trans hundo, h.vok, h.aok, fun a ha => ?_⟩
  · simp only [Expr.beval, bevalVar_eq hb.accA, Option.bind_eq_bind, Option.bind_some]
    rw [show readCells s.val s.vok c.val c.size = some f0 from hx0]
    simp only [Option.bind_some]
    rw [assignV_eq (s := s1) hb.accV (noClash_ptr (hb.dV.mono_left hb.cV).symm)]
    simp only [Option.bind_some]
    rw [show St.readA _ v.adj v.size = _ from hg0]
    simp only [Option.bind_some]
    rw [writeA_eq (s := s2) hb.caccA]
    simp only [Option.bind_some]
    rw [writeA_eq (s := s3) hb.accA]
    simp only [Option.bind_some]
    rw [show readCells _ _ v.val v.size = some f0 from hx]
    simp only [Option.bind_some]
    rw [show e.getRef.read _ e.size = _ from hy]
    simp only [Option.bind_some]
    rw [show St.readA _ c.adj c.size = _ from hg]
    simp only [Option.bind_some]
    rw [show e.beval _ _ = some s5 from h.run]
    simp only [Option.bind_some]
    split
    · exact h6
    · rw [hx5]
      simp only [Option.bind_some]
      rw [hy5]
      simp only [Option.bind_some]
      rw [hg5]
      exact h6
  · show fillRange s5.adj (addr v.adj) v.size (fun k => trunc v.size (fun k => s5.adj (addr v.adj + k)) k + sl k) a = _ + _
    rw [bevalVar_adj, ← hgr, h.adj a fun x => ha (hb.pure.ownA x), h4v a ha]
    by_cases hav : a ∈ rng v.adj v.size
    · simp only [if_pos hav]
      obtain ⟨k, hk, rfl⟩ := mem_rng_iff.1 hav
      rw [Nat.add_sub_cancel_left]
      have : sl k = op.bl (s.adj (addr v.adj + k) + seed k) (m (addr v.val + k)) (e.denote m (if e.shape.isScl then 0 else k)) := by
        show op.bl (trunc v.size _ k) (trunc v.size _ k) _ = _
        rw [bcast_operand hb.pure.wf.shapeOk hb.shape hk, trunc_of_lt hk, trunc_of_lt hk]
      rw [this]
      ring
    · simp only [if_neg hav]
      ring

theorem back_ok {BV BA : Set ℕ} {x : Expr ℝ} {m seed : ℕ → ℝ} {s : St ℝ}
    (hb : StmtB s.vok s.aok BV BA x) (hc : x.PC BV m s.val) (hm : ∀ a ∈ x.ment, s.val a = x.exec m a) :
    ∃ s', BackOk BA x m seed s s' := by
  by_cases hs : x.isStmt = false
  · exact back_pure hs hb hc hm
  · cases x with
    | eq v e w => exact back_eq hb hc hm
    | opEq op v e w c => exact back_opEq hb hc hm
    | _ => simp [Expr.isStmt] at hs

end FastAD
