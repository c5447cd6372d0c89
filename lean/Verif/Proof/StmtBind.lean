import Verif.Proof.StmtDefs

/-!
# Binding statements
-/

namespace FastAD

variable {α : Type} [Zero α] [One α] [Add α] [Sub α] [Neg α] [Mul α] [Div α] [NatCast α] [IntCast α]
variable [Fn α] [HasInf α] [LinAlg α]
set_option linter.unusedSectionVars false

theorem binds_ok (vok aok : ℕ → Bool) (es : Exprs α) : ∀ b : Pack, es.WFs → es.LeavesOks vok aok →
      accessible vok b.val es.bindSize.val → accessible aok b.adj es.bindSize.adj →
      BindsOk vok aok (es.bind b).1 b es.bindSize := by
  induction es using Exprs.rec (motive_1 := fun _ => True) with
  | nil =>
    intro b _ _ _ _
    exact ⟨trivial, Set.empty_subset _, Set.empty_subset _⟩
  | cons e es _ ih =>
    intro b hwf hl hv ha
    simp only [Exprs.bindSize, SizePack.add_val, SizePack.add_adj] at hv ha
    obtain ⟨hv1, hv2, hvd, hvs1, hvs2⟩ := accessible_split hv
    obtain ⟨ha1, ha2, had, has1, has2⟩ := accessible_split ha
    have h1 := bind_ok vok aok e b hwf.1 hl.1 hv1 ha1
    have h2 := ih (b.adv e.bindSize) hwf.2 hl.2 hv2 ha2
    simp only [Exprs.bind, Exprs.bindSize, bind_adv]
    refine ⟨⟨h1.wb, h2.wb, hvd.mono h1.ownV h2.ownV, had.mono h1.ownA h2.ownA⟩, ?_, ?_⟩
    · exact Set.union_subset (h1.ownV.trans hvs1) (h2.ownV.trans hvs2)
    · exact Set.union_subset (h1.ownA.trans has1) (h2.ownA.trans has2)
  | _ => trivial

/-- what binding the right-hand side of `v = e` delivers -/
structure RootOk (vok aok : ℕ → Bool) (v : View) (e' : Expr α) (b : Pack) (n : SizePack) : Prop where
  wb : e'.WB vok aok
  inV : e'.innerV ⊆ rng b.val n.val
  inA : e'.innerA ⊆ rng b.adj n.adj
  notProd : e'.isProdElem = false
  root : (e'.valRoot = ∅ ∧ e'.adjRoot = ∅) ∨
    (e'.isIf = false ∧ e'.getRef = .ptr v.val ∧ e'.view.adj = v.adj ∧ e'.valRoot ⊆ rng v.val v.size ∧ e'.adjRoot ⊆ rng v.adj v.size)

theorem root_ok (vok aok : ℕ → Bool) (v : View) (e : Expr α) (b : Pack)
    (hne : e.Assignable) (hwf : e.WF) (hl : e.LeavesOk vok aok) (hsh : e.shape = v.shape)
    (hv : accessible vok b.val (e.bindSize - e.single).val) (ha : accessible aok b.adj (e.bindSize - e.single).adj)
    (hav : accessible vok v.val v.size) (haa : accessible aok v.adj v.size)
    (hdv : Disjoint (rng b.val (e.bindSize - e.single).val) (rng v.val v.size))
    (hda : Disjoint (rng b.adj (e.bindSize - e.single).adj) (rng v.adj v.size)) :
    RootOk vok aok v ((e.bind b).1.rebind v.val v.adj) b (e.bindSize - e.single) := by
  have hsub : ∀ {n c : SizePack}, n + c - n = c := fun {n c} =>
    SizePack.ext' (Nat.add_sub_cancel_left _ _) (Nat.add_sub_cancel_left _ _)
  have hsub' : ∀ {n c : SizePack}, c + n - n = c := fun {n c} =>
    SizePack.ext' (Nat.add_sub_cancel _ _) (Nat.add_sub_cancel _ _)
  have hroot : ∀ w : View, w.shape = v.shape → (⟨w.shape, v.val, v.adj⟩ : View).size = v.size := by
    intro w hw; simp only [View.size, hw]
  have hwv : ∀ w : View, w.shape = v.shape → rng v.val (⟨w.shape, v.val, v.adj⟩ : View).size = rng v.val v.size := by
    intro w hw; rw [hroot w hw]
  cases e with
  | var => exact hne.elim
  | prodElem => exact hne.elim
  | eq => exact hwf.elim
  | opEq => exact hwf.elim
  | glue => exact hwf.elim
  | forEach => exact hwf.elim
  | const sh c => exact ⟨trivial, Set.empty_subset _, Set.empty_subset _, rfl, Or.inl ⟨rfl, rfl⟩⟩
  | cview sh p => exact ⟨hl, Set.empty_subset _, Set.empty_subset _, rfl, Or.inl ⟨rfl, rfl⟩⟩
  | ifElse c x y w =>
    have hs : (Expr.ifElse c x y w).bindSize - (Expr.ifElse c x y w).single = (Expr.ifElse c x y w).bindSize :=
      SizePack.ext' (Nat.sub_zero _) (Nat.sub_zero _)
    rw [hs] at hv ha hdv hda ⊢
    have h := bind_ok vok aok (Expr.ifElse c x y w) b hwf hl hv ha
    refine ⟨?_, ?_, ?_, rfl, Or.inl ⟨rfl, rfl⟩⟩
    · exact h.wb
    · exact fun a ha => h.ownV (Or.inl ha)
    · exact fun a ha => h.ownA (Or.inl ha)
  | unary op e w =>
    have hs : (Expr.unary op e w).bindSize - (Expr.unary op e w).single = e.bindSize := hsub
    have hw : (⟨w.shape, v.val, v.adj⟩ : View).size = v.size := hroot w hsh
    rw [hs] at hv ha hdv hda ⊢
    have h := bind_ok vok aok e b hwf.1 hl hv ha
    have hdv' : Disjoint (rng v.val v.size) (e.bind b).1.ownV := (hdv.mono_left h.ownV).symm
    have hda' : Disjoint (rng v.adj v.size) (e.bind b).1.ownA := (hda.mono_left h.ownA).symm
    refine ⟨⟨h.wb, ?_, ?_, ?_, ?_⟩, h.ownV, h.ownA, rfl, Or.inr ⟨rfl, rfl, rfl, ?_, ?_⟩⟩
    · exact hw ▸ hav
    · exact hw ▸ haa
    · exact hw ▸ hdv'
    · exact hw ▸ hda'
    · exact hw ▸ subset_rfl
    · exact hw ▸ subset_rfl
  | transpose e w =>
    have hs : (Expr.transpose e w).bindSize - (Expr.transpose e w).single = e.bindSize := hsub'
    have hw : (⟨w.shape, v.val, v.adj⟩ : View).size = v.size := hroot w hsh
    rw [hs] at hv ha hdv hda ⊢
    have h := bind_ok vok aok e b hwf.1 hl hv ha
    have hdv' : Disjoint (rng v.val v.size) (e.bind b).1.ownV := (hdv.mono_left h.ownV).symm
    have hda' : Disjoint (rng v.adj v.size) (e.bind b).1.ownA := (hda.mono_left h.ownA).symm
    refine ⟨⟨h.wb, ?_, ?_, ?_, ?_⟩, h.ownV, h.ownA, rfl, Or.inr ⟨rfl, rfl, rfl, ?_, ?_⟩⟩
    · exact hw ▸ hav
    · exact hw ▸ haa
    · exact hw ▸ hdv'
    · exact hw ▸ hda'
    · exact hw ▸ subset_rfl
    · exact hw ▸ subset_rfl
  | pow n e w =>
    have hs : (Expr.pow n e w).bindSize - (Expr.pow n e w).single = e.bindSize := hsub
    have hw : (⟨w.shape, v.val, v.adj⟩ : View).size = v.size := hroot w hsh
    rw [hs] at hv ha hdv hda ⊢
    have h := bind_ok vok aok e b hwf.1 hl hv ha
    have hdv' : Disjoint (rng v.val v.size) (e.bind b).1.ownV := (hdv.mono_left h.ownV).symm
    have hda' : Disjoint (rng v.adj v.size) (e.bind b).1.ownA := (hda.mono_left h.ownA).symm
    have hsv : rng v.val (⟨w.shape, v.val, v.adj⟩ : View).size ⊆ rng v.val v.size := hw ▸ subset_rfl
    have hsa : rng v.adj (⟨w.shape, v.val, v.adj⟩ : View).size ⊆ rng v.adj v.size := hw ▸ subset_rfl
    by_cases hn : n = 0 ∨ n = 1
    · simp only [Expr.bind, if_pos hn]
      refine ⟨⟨h.wb, hw ▸ hav, hw ▸ hdv', fun h => absurd hn h⟩, h.ownV, h.ownA, rfl, Or.inr ⟨rfl, rfl, rfl, hsv, ?_⟩⟩
      simp only [Expr.rebind, Expr.adjRoot, if_pos hn]
      exact Set.empty_subset _
    · simp only [Expr.bind, if_neg hn]
      refine ⟨⟨h.wb, hw ▸ hav, hw ▸ hdv', fun _ => ⟨hw ▸ haa, hw ▸ hda'⟩⟩, h.ownV, h.ownA, rfl, Or.inr ⟨rfl, rfl, rfl, hsv, ?_⟩⟩
      simp only [Expr.rebind, Expr.adjRoot, if_neg hn]
      exact hsa
  | binary op l r w =>
    have hs : (Expr.binary op l r w).bindSize - (Expr.binary op l r w).single = l.bindSize + r.bindSize := by
      simp only [Expr.bindSize]; rw [SizePack.add_assoc']; exact hsub
    have hw : (⟨w.shape, v.val, v.adj⟩ : View).size = v.size := hroot w hsh
    rw [hs] at hv ha hdv hda ⊢
    obtain ⟨hv3, hv4, hvd2, hvs3, hvs4⟩ := accessible_split hv
    obtain ⟨ha3, ha4, had2, has3, has4⟩ := accessible_split ha
    have h1 := bind_ok vok aok l b hwf.1 hl.1 hv3 ha3
    have h2 := bind_ok vok aok r (b.adv l.bindSize) hwf.2.1 hl.2 hv4 ha4
    have hoV := Set.union_subset (h1.ownV.trans hvs3) (h2.ownV.trans hvs4)
    have hoA := Set.union_subset (h1.ownA.trans has3) (h2.ownA.trans has4)
    have hdv' : Disjoint (rng v.val v.size) ((l.bind b).1.ownV ∪ (r.bind (b.adv l.bindSize)).1.ownV) := (hdv.mono_left hoV).symm
    have hda' : Disjoint (rng v.adj v.size) ((l.bind b).1.ownA ∪ (r.bind (b.adv l.bindSize)).1.ownA) := (hda.mono_left hoA).symm
    have hsv : rng v.val (⟨w.shape, v.val, v.adj⟩ : View).size ⊆ rng v.val v.size := hw ▸ subset_rfl
    have hsa : rng v.adj (⟨w.shape, v.val, v.adj⟩ : View).size ⊆ rng v.adj v.size := hw ▸ subset_rfl
    by_cases hn : op.isComparison = true
    · simp only [Expr.bind, bind_adv, if_pos hn]
      refine ⟨⟨h1.wb, h2.wb, hvd2.mono h1.ownV h2.ownV, had2.mono h1.ownA h2.ownA, hw ▸ hav, hw ▸ hdv',
        fun h => by rw [hn] at h; exact absurd h (by simp)⟩, hoV, hoA, rfl, Or.inr ⟨rfl, rfl, rfl, hsv, ?_⟩⟩
      simp only [Expr.rebind, Expr.adjRoot, if_pos hn]
      exact Set.empty_subset _
    · simp only [Expr.bind, bind_adv, if_neg hn]
      refine ⟨⟨h1.wb, h2.wb, hvd2.mono h1.ownV h2.ownV, had2.mono h1.ownA h2.ownA, hw ▸ hav, hw ▸ hdv',
        fun _ => ⟨hw ▸ haa, hw ▸ hda'⟩⟩, hoV, hoA, rfl, Or.inr ⟨rfl, rfl, rfl, hsv, ?_⟩⟩
      simp only [Expr.rebind, Expr.adjRoot, if_neg hn]
      exact hsa
  | dot l r w =>
    have hs : (Expr.dot l r w).bindSize - (Expr.dot l r w).single = l.bindSize + r.bindSize := by
      simp only [Expr.bindSize]; rw [SizePack.add_assoc']; exact hsub
    have hw : (⟨w.shape, v.val, v.adj⟩ : View).size = v.size := hroot w hsh
    rw [hs] at hv ha hdv hda ⊢
    obtain ⟨hv3, hv4, hvd2, hvs3, hvs4⟩ := accessible_split hv
    obtain ⟨ha3, ha4, had2, has3, has4⟩ := accessible_split ha
    have h1 := bind_ok vok aok l b hwf.1 hl.1 hv3 ha3
    have h2 := bind_ok vok aok r (b.adv l.bindSize) hwf.2.1 hl.2 hv4 ha4
    have hoV := Set.union_subset (h1.ownV.trans hvs3) (h2.ownV.trans hvs4)
    have hoA := Set.union_subset (h1.ownA.trans has3) (h2.ownA.trans has4)
    have hdv' : Disjoint (rng v.val v.size) ((l.bind b).1.ownV ∪ (r.bind (b.adv l.bindSize)).1.ownV) := (hdv.mono_left hoV).symm
    have hda' : Disjoint (rng v.adj v.size) ((l.bind b).1.ownA ∪ (r.bind (b.adv l.bindSize)).1.ownA) := (hda.mono_left hoA).symm
    have hsv : rng v.val (⟨w.shape, v.val, v.adj⟩ : View).size ⊆ rng v.val v.size := hw ▸ subset_rfl
    have hsa : rng v.adj (⟨w.shape, v.val, v.adj⟩ : View).size ⊆ rng v.adj v.size := hw ▸ subset_rfl
    simp only [Expr.bind, bind_adv]
    exact ⟨⟨h1.wb, h2.wb, hvd2.mono h1.ownV h2.ownV, had2.mono h1.ownA h2.ownA, hw ▸ hav, hw ▸ haa, hw ▸ hdv', hw ▸ hda'⟩,
      hoV, hoA, rfl, Or.inr ⟨rfl, rfl, rfl, hsv, hsa⟩⟩
  | sumIter es w =>
    have hs : (Expr.sumIter es w).bindSize - (Expr.sumIter es w).single = es.bindSize := hsub'
    have hw : (⟨w.shape, v.val, v.adj⟩ : View).size = v.size := hroot w hsh
    rw [hs] at hv ha hdv hda ⊢
    have h := binds_ok vok aok es b hwf.1 hl hv ha
    have hdv' : Disjoint (rng v.val v.size) (es.bind b).1.ownVs := (hdv.mono_left h.ownV).symm
    have hda' : Disjoint (rng v.adj v.size) (es.bind b).1.ownAs := (hda.mono_left h.ownA).symm
    refine ⟨⟨h.wb, ?_, ?_, ?_, ?_⟩, h.ownV, h.ownA, rfl, Or.inr ⟨rfl, rfl, rfl, ?_, ?_⟩⟩
    · exact hw ▸ hav
    · exact hw ▸ haa
    · exact hw ▸ hdv'
    · exact hw ▸ hda'
    · exact hw ▸ subset_rfl
    · exact hw ▸ subset_rfl
  | prodIter es w =>
    have hs : (Expr.prodIter es w).bindSize - (Expr.prodIter es w).single = es.bindSize := hsub'
    have hw : (⟨w.shape, v.val, v.adj⟩ : View).size = v.size := hroot w hsh
    rw [hs] at hv ha hdv hda ⊢
    have h := binds_ok vok aok es b hwf.1 hl hv ha
    have hdv' : Disjoint (rng v.val v.size) (es.bind b).1.ownVs := (hdv.mono_left h.ownV).symm
    have hda' : Disjoint (rng v.adj v.size) (es.bind b).1.ownAs := (hda.mono_left h.ownA).symm
    refine ⟨⟨h.wb, ?_, ?_, ?_, ?_⟩, h.ownV, h.ownA, rfl, Or.inr ⟨rfl, rfl, rfl, ?_, ?_⟩⟩
    · exact hw ▸ hav
    · exact hw ▸ haa
    · exact hw ▸ hdv'
    · exact hw ▸ hda'
    · exact hw ▸ subset_rfl
    · exact hw ▸ subset_rfl
  | reduce op es w =>
    have hs : (Expr.reduce op es w).bindSize - (Expr.reduce op es w).single = es.bindSize := hsub'
    have hw : (⟨w.shape, v.val, v.adj⟩ : View).size = v.size := hroot w hsh
    rw [hs] at hv ha hdv hda ⊢
    have h := binds_ok vok aok es b hwf.1 hl hv ha
    have hdv' : Disjoint (rng v.val v.size) (es.bind b).1.ownVs := (hdv.mono_left h.ownV).symm
    refine ⟨⟨h.wb, ?_, ?_⟩, h.ownV, h.ownA, rfl, Or.inr ⟨rfl, rfl, rfl, ?_, Set.empty_subset _⟩⟩
    · exact hw ▸ hav
    · exact hw ▸ hdv'
    · exact hw ▸ subset_rfl


/-! ### Statements -/

/-- storage of an expression as sets -/
theorem sub_valCells {e : Expr α} {v : View} (h : v ∈ e.vars) : rng v.val v.size ⊆ (e.valCells : Set ℕ) :=
  fun _ ha => mem_valCells.2 ⟨v, h, ha⟩
theorem sub_adjCells {e : Expr α} {v : View} (h : v ∈ e.vars) : rng v.adj v.size ⊆ (e.adjCells : Set ℕ) :=
  fun _ ha => mem_adjCells.2 ⟨v, h, ha⟩

/-- binding keeps the partial-overlap condition -/
theorem overlap_bind {v : View} {e : Expr α} (b : Pack) (h : e.NoPartialOverlap v) : (e.bind b).1.NoPartialOverlap v := by
  cases e <;> first | exact h | trivial

theorem isIf_bind (e : Expr α) (b : Pack) : (e.bind b).1.isIf = e.isIf := by
  rw [← Expr.strip_isIf, bind_strip, Expr.strip_isIf]

theorem isStmt_bind (x : Expr α) (b : Pack) : (x.bind b).1.isStmt = x.isStmt := by cases x <;> rfl

theorem stmtB_of_pure {vok aok : ℕ → Bool} {BV BA : Set ℕ} {x : Expr α} (hs : x.isStmt = false)
    (h : PureB vok aok BV BA x ∧ x.isIf = false ∧ x.getRef = .ptr x.view.val) : StmtB vok aok BV BA x := by
  cases x <;> first | exact h | simp [Expr.isStmt] at hs

theorem WFStmt_pure {x : Expr α} (hs : x.isStmt = false) (h : x.WFStmt) :
    x.WF ∧ x.isIf = false ∧ x.NotConst := by
  cases x <;> first | exact h | exact h.elim | simp [Expr.isStmt] at hs

/-- Binding a well-formed statement with caches in the blocks `BV`, `BA`, which are disjoint from the storage the statement mentions. -/
theorem stmt_bind {vok aok : ℕ → Bool} {BV BA : Set ℕ} {x : Expr α} {b : Pack} (hwf : x.WFStmt) (hal : x.Alive vok aok)
    (hv : accessible vok b.val x.bindSize.val) (ha : accessible aok b.adj x.bindSize.adj)
    (hBV : rng b.val x.bindSize.val ⊆ BV) (hBA : rng b.adj x.bindSize.adj ⊆ BA)
    (hdV : Disjoint BV ((x.valCells : Set ℕ) ∪ x.constCells)) (hdA : Disjoint BA (x.adjCells : Set ℕ)) :
    StmtB vok aok BV BA (x.bind b).1 ∧ (x.bind b).1.lv ⊆ rng b.val x.bindSize.val := by
  have hreads : ∀ y : Expr α, (∀ v ∈ y.vars, v ∈ x.vars) → (∀ c ∈ y.cviews, c ∈ x.cviews) →
      Disjoint BV y.reads ∧ Disjoint BA y.readsA := by
    intro y h1 h2
    refine ⟨hdV.mono_right fun a ha => ?_, hdA.mono_right fun a ha => ?_⟩
    · rcases reads_cells y a ha with h | h
      · obtain ⟨v, hv, h⟩ := mem_valCells.1 h
        exact Or.inl (mem_valCells.2 ⟨v, h1 v hv, h⟩)
      · obtain ⟨c, hc, h⟩ := mem_constCells.1 h
        exact Or.inr (mem_constCells.2 ⟨c, h2 c hc, h⟩)
    · obtain ⟨v, hv, h⟩ := mem_adjCells.1 (readsA_cells y a ha)
      exact mem_adjCells.2 ⟨v, h1 v hv, h⟩
  by_cases hs : x.isStmt = false
  · obtain ⟨hw, hif, hc⟩ := WFStmt_pure hs hwf
    have hst := bind_strip x b
    have hb := bind_ok vok aok x b hw (leavesOk_of_alive x hal) hv ha
    have hr := hreads x (fun _ h => h) (fun _ h => h)
    have hwf' : (x.bind b).1.WF := (Expr.WF_of_strip hst).2 hw
    refine ⟨stmtB_of_pure ((isStmt_bind x b).trans hs) ⟨⟨hwf', hb.wb, hb.ownV.trans hBV, hb.ownA.trans hBA, ?_, ?_⟩, ?_, ?_⟩, ?_⟩
    · rw [Expr.reads_of_strip hst]; exact hr.1
    · rw [Expr.readsA_of_strip hst]; exact hr.2
    · rw [isIf_bind]; exact hif
    · cases x <;> first | rfl | exact hc.elim
    · rw [hwf'.lv]; exact hb.ownV
  · cases x with
    | eq v e w =>
      obtain ⟨hw, hok, hsh, hws, hne, hcell⟩ := hwf
      have hvv := hal.1 v (by simp [Expr.vars])
      have hal' : e.Alive vok aok := ⟨fun u hu => hal.1 u (by simp [Expr.vars, hu]), hal.2⟩
      have hBv : Disjoint BV (rng v.val v.size) :=
        hdV.mono_right fun a h => Or.inl (sub_valCells (e := .eq v e w) (by simp [Expr.vars]) h)
      have hBa : Disjoint BA (rng v.adj v.size) :=
        hdA.mono_right fun a h => sub_adjCells (e := .eq v e w) (by simp [Expr.vars]) h
      have hroot := root_ok vok aok v e b hne hw (leavesOk_of_alive e hal') hsh hv ha hvv.1 hvv.2
        (hBv.mono_left hBV) (hBa.mono_left hBA)
      have hst : ((e.bind b).1.rebind v.val v.adj).strip = e.strip := by rw [Expr.rebind_strip, bind_strip]
      have hr := hreads e (fun u hu => by simp [Expr.vars, hu]) (fun _ h => h)
      refine ⟨⟨(Expr.WF_of_strip hst).2 hw, hroot.wb, hvv.1, hvv.2, (Expr.shape_of_strip hst).trans hsh, hws, rfl,
        hroot.inV.trans hBV, hroot.inA.trans hBA, ?_, ?_, ?_, ?_, hroot.notProd, hroot.root⟩, hroot.inV⟩
      · rw [Expr.reads_of_strip hst]; exact Set.disjoint_union_right.2 ⟨hr.1, hBv⟩
      · rw [Expr.readsA_of_strip hst]; exact Set.disjoint_union_right.2 ⟨hr.2, hBa⟩
      · rw [Expr.reads_of_strip hst, Set.disjoint_left]
        intro a ha h
        obtain ⟨k, hk, rfl⟩ := mem_rng_iff.1 ha
        exact (reads_cells e _ h).elim (hcell k hk).1 (hcell k hk).2.1
      · rw [Expr.readsA_of_strip hst, Set.disjoint_left]
        intro a ha h
        obtain ⟨k, hk, rfl⟩ := mem_rng_iff.1 ha
        exact (hcell k hk).2.2 (readsA_cells e _ h)
    | opEq op v e w c =>
      obtain ⟨hw, hok, hsh, hws, hcs, hif, hov⟩ := hwf
      have hvv := hal.1 v (by simp [Expr.vars])
      have hal' : e.Alive vok aok := ⟨fun u hu => hal.1 u (by simp [Expr.vars, hu]), hal.2⟩
      have hBv : Disjoint BV (rng v.val v.size) :=
        hdV.mono_right fun a h => Or.inl (sub_valCells (e := .opEq op v e w c) (by simp [Expr.vars]) h)
      have hBa : Disjoint BA (rng v.adj v.size) :=
        hdA.mono_right fun a h => sub_adjCells (e := .opEq op v e w c) (by simp [Expr.vars]) h
      have hsz : (Expr.opEq op v e w c).bindSize = e.bindSize + ⟨c.size, c.size⟩ := by
        simp only [Expr.bindSize, Expr.single]; exact SizePack.add_comm' _ _
      rw [hsz] at hv ha hBV hBA
      obtain ⟨hv1, hv2, hvd, hvs1, hvs2⟩ := accessible_split hv
      obtain ⟨ha1, ha2, had, has1, has2⟩ := accessible_split ha
      have hb := bind_ok vok aok e b hw (leavesOk_of_alive e hal') hv1 ha1
      have hst := bind_strip e b
      have hr := hreads e (fun u hu => by simp [Expr.vars, hu]) (fun _ h => h)
      rw [hsz]
      simp only [Expr.bind, View.bind, bind_adv]
      refine ⟨⟨⟨(Expr.WF_of_strip hst).2 hw, hb.wb, (hb.ownV.trans hvs1).trans hBV, (hb.ownA.trans has1).trans hBA, ?_, ?_⟩,
        ?_, hvv.1, hvv.2, hok, ?_, hws, rfl, hcs, hv2, ha2, hvs2.trans hBV, has2.trans hBA, ?_, ?_, hBv, hBa, overlap_bind b hov⟩, ?_⟩
      · rw [Expr.reads_of_strip hst]; exact hr.1
      · rw [Expr.readsA_of_strip hst]; exact hr.2
      · rw [isIf_bind]; exact hif
      · rw [Expr.shape_of_strip hst]; exact hsh
      · exact (hvd.mono_left hb.ownV).symm
      · exact (had.mono_left hb.ownA).symm
      · exact Set.union_subset (hb.ownV.trans hvs1) hvs2
    | _ => simp [Expr.isStmt] at hs

end FastAD
