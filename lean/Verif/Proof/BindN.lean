import Verif.Proof.StmtBind

/-!
# Binding expressions with blocks

The caches go to the given block of cells, as for pure expressions; the cells a block owns in addition are those of its placeholders.
-/

namespace FastAD

variable {α : Type}

/-- value cells of the listed placeholders -/
def pvs (L : List View) : Set ℕ := {a | ∃ v ∈ L, a ∈ rng v.val v.size}

/-- adjoint cells of the listed placeholders -/
def pas (L : List View) : Set ℕ := {a | ∃ v ∈ L, a ∈ rng v.adj v.size}

theorem pvs_append (L M : List View) : pvs (L ++ M) = pvs L ∪ pvs M := by
  ext a; simp [pvs, or_and_right, exists_or]
theorem pas_append (L M : List View) : pas (L ++ M) = pas L ∪ pas M := by
  ext a; simp [pas, or_and_right, exists_or]
theorem pvs_cons (v : View) (L : List View) : pvs (v :: L) = rng v.val v.size ∪ pvs L := by
  ext a; simp [pvs]
theorem pas_cons (v : View) (L : List View) : pas (v :: L) = rng v.adj v.size ∪ pas L := by
  ext a; simp [pas]
theorem pvs_nil : pvs [] = ∅ := by ext a; simp [pvs]
theorem pas_nil : pas [] = ∅ := by ext a; simp [pas]

theorem distinct_append {L M : List View} :
    Distinct (L ++ M) ↔ Distinct L ∧ Distinct M ∧ Disjoint (pvs L) (pvs M) ∧ Disjoint (pas L) (pas M) := by
  simp only [Distinct, List.pairwise_append]
  refine and_congr_right fun _ => and_congr_right fun _ => ?_
  constructor
  · intro h
    constructor
    · rw [Set.disjoint_left]
      rintro a ⟨u, hu, h1⟩ ⟨v, hv, h2⟩
      exact Set.disjoint_left.1 (h u hu v hv).1 h1 h2
    · rw [Set.disjoint_left]
      rintro a ⟨u, hu, h1⟩ ⟨v, hv, h2⟩
      exact Set.disjoint_left.1 (h u hu v hv).2 h1 h2
  · rintro ⟨h1, h2⟩ u hu v hv
    refine ⟨Set.disjoint_left.2 fun a ha hb => ?_, Set.disjoint_left.2 fun a ha hb => ?_⟩
    · exact Set.disjoint_left.1 h1 ⟨u, hu, ha⟩ ⟨v, hv, hb⟩
    · exact Set.disjoint_left.1 h2 ⟨u, hu, ha⟩ ⟨v, hv, hb⟩

theorem distinct_cons {v : View} {L : List View} :
    Distinct (v :: L) ↔ Distinct L ∧ Disjoint (rng v.val v.size) (pvs L) ∧ Disjoint (rng v.adj v.size) (pas L) := by
  rw [show v :: L = [v] ++ L from rfl, distinct_append]
  simp [Distinct, pvs_cons, pas_cons, pvs_nil, pas_nil]

theorem disj_union {A B C : Set ℕ} (h1 : Disjoint A C) (h2 : Disjoint B C) : Disjoint (A ∪ B) C := Set.disjoint_union_left.2 ⟨h1, h2⟩

/-- splitting a block of cells into that of the operands and that of the node itself -/
theorem split_root {ok : ℕ → Bool} {p : Option ℕ} {a b : ℕ} {P : Set ℕ} (h : accessible ok p (a + b)) (hP : Disjoint (rng p (a + b)) P) :
    accessible ok p a ∧ accessible ok (p.map (· + a)) b ∧ Disjoint (rng p a ∪ P) (rng (p.map (· + a)) b) ∧
    rng p a ∪ P ⊆ rng p (a + b) ∪ P ∧ rng (p.map (· + a)) b ⊆ rng p (a + b) ∪ P ∧ Disjoint (rng p a) P := by
  obtain ⟨h1, h2, h3, h4, h5⟩ := accessible_split h
  exact ⟨h1, h2, disj_union h3 (hP.mono_left h5).symm, Set.union_subset_union_left _ h4, h5.trans Set.subset_union_left, hP.mono_left h4⟩

/-- splitting a block of cells into those of two operands -/
theorem split_two {ok : ℕ → Bool} {p : Option ℕ} {a b : ℕ} {P Q : Set ℕ} (h : accessible ok p (a + b)) (hP : Disjoint (rng p (a + b)) (P ∪ Q))
    (hPQ : Disjoint P Q) :
    accessible ok p a ∧ accessible ok (p.map (· + a)) b ∧ Disjoint (rng p a ∪ P) (rng (p.map (· + a)) b ∪ Q) ∧
    rng p a ∪ P ⊆ rng p (a + b) ∪ (P ∪ Q) ∧ rng (p.map (· + a)) b ∪ Q ⊆ rng p (a + b) ∪ (P ∪ Q) ∧ Disjoint (rng p a) P ∧
    Disjoint (rng (p.map (· + a)) b) Q := by
  obtain ⟨h1, h2, h3, h4, h5⟩ := accessible_split h
  obtain ⟨hp, hq⟩ := Set.disjoint_union_right.1 hP
  exact ⟨h1, h2, disj_union (Set.disjoint_union_right.2 ⟨h3, hq.mono_left h4⟩) (Set.disjoint_union_right.2 ⟨(hp.mono_left h5).symm, hPQ⟩),
    Set.union_subset_union h4 Set.subset_union_left, Set.union_subset_union h5 Set.subset_union_right, hp.mono_left h4, hq.mono_left h5⟩

/-- Outcome of binding an expression to a block of cells; `PV`, `PA` are the cells of its placeholders. -/
structure BindOkN (vok aok : ℕ → Bool) (e' : Expr α) (b : Pack) (n : SizePack) (PV PA : Set ℕ) : Prop where
  wb : e'.WB vok aok
  ownV : e'.ownV ⊆ rng b.val n.val ∪ PV
  ownA : e'.ownA ⊆ rng b.adj n.adj ∪ PA

structure BindsOkN (vok aok : ℕ → Bool) (es' : Exprs α) (b : Pack) (n : SizePack) (PV PA : Set ℕ) : Prop where
  wb : es'.WBs vok aok
  ownV : es'.ownVs ⊆ rng b.val n.val ∪ PV
  ownA : es'.ownAs ⊆ rng b.adj n.adj ∪ PA

def BindClaim (vok aok : ℕ → Bool) (e : Expr α) : Prop :=
  ∀ b : Pack, e.NWF → e.LeavesOk vok aok → accessible vok b.val e.bindSize.val → accessible aok b.adj e.bindSize.adj →
    Distinct e.places → Disjoint (rng b.val e.bindSize.val) (pvs e.places) → Disjoint (rng b.adj e.bindSize.adj) (pas e.places) →
    BindOkN vok aok (e.bind b).1 b e.bindSize (pvs e.places) (pas e.places)

def BindStm (vok aok : ℕ → Bool) (e : Expr α) : Prop :=
  ∀ b : Pack, e.NStm → e.LeavesOk vok aok → accessible vok b.val e.bindSize.val → accessible aok b.adj e.bindSize.adj →
    Distinct e.places → Disjoint (rng b.val e.bindSize.val) (pvs e.places) → Disjoint (rng b.adj e.bindSize.adj) (pas e.places) →
    BindOkN vok aok (e.bind b).1 b e.bindSize (pvs e.places) (pas e.places)

/-- what binding the right-hand side of `v = e` delivers -/
structure RootOkN (vok aok : ℕ → Bool) (v : View) (e' : Expr α) (b : Pack) (n : SizePack) (PV PA : Set ℕ) : Prop where
  wb : e'.WB vok aok
  inV : e'.innerV ⊆ rng b.val n.val ∪ PV
  inA : e'.innerA ⊆ rng b.adj n.adj ∪ PA
  notProd : e'.isProdElem = false
  root : (e'.valRoot = ∅ ∧ e'.adjRoot = ∅) ∨
    (e'.isIf = false ∧ e'.view.val = v.val ∧ e'.view.adj = v.adj ∧ e'.valRoot ⊆ rng v.val v.size ∧ e'.adjRoot ⊆ rng v.adj v.size)

def RootClaim (vok aok : ℕ → Bool) (e : Expr α) : Prop :=
  ∀ (v : View) (b : Pack), e.Assignable → e.NWF → e.LeavesOk vok aok → e.shape = v.shape →
    accessible vok b.val (e.bindSize - e.single).val → accessible aok b.adj (e.bindSize - e.single).adj →
    accessible vok v.val v.size → accessible aok v.adj v.size →
    Disjoint (rng b.val (e.bindSize - e.single).val) (rng v.val v.size) → Disjoint (rng b.adj (e.bindSize - e.single).adj) (rng v.adj v.size) →
    Distinct e.places → Disjoint (rng b.val (e.bindSize - e.single).val) (pvs e.places) →
    Disjoint (rng b.adj (e.bindSize - e.single).adj) (pas e.places) → Disjoint (pvs e.places) (rng v.val v.size) → Disjoint (pas e.places) (rng v.adj v.size) →
    RootOkN vok aok v ((e.bind b).1.rebind v.val v.adj) b (e.bindSize - e.single) (pvs e.places) (pas e.places)

theorem root_sizes (v : View) : (∀ w : View, w.shape = v.shape → (⟨w.shape, v.val, v.adj⟩ : View).size = v.size) ∧
    (∀ {n c : SizePack}, n + c - n = c) ∧ ∀ {n c : SizePack}, c + n - n = c :=
  ⟨fun w hw => by simp only [View.size, hw],
    fun {n c} => SizePack.ext' (Nat.add_sub_cancel_left _ _) (Nat.add_sub_cancel_left _ _),
    fun {n c} => SizePack.ext' (Nat.add_sub_cancel _ _) (Nat.add_sub_cancel _ _)⟩

theorem bindsN {vok aok : ℕ → Bool} (es : Exprs α) : (∀ e ∈ es.toList, BindClaim vok aok e) → ∀ b : Pack, es.NWFs → es.LeavesOks vok aok →
    accessible vok b.val es.bindSize.val → accessible aok b.adj es.bindSize.adj →
    Distinct es.placess → Disjoint (rng b.val es.bindSize.val) (pvs es.placess) → Disjoint (rng b.adj es.bindSize.adj) (pas es.placess) →
    BindsOkN vok aok (es.bind b).1 b es.bindSize (pvs es.placess) (pas es.placess) := by
  induction es using Exprs.rec (motive_1 := fun _ => True) with
  | nil =>
    intro _ b _ _ _ _ _ _ _
    exact ⟨trivial, Set.empty_subset _, Set.empty_subset _⟩
  | cons e es _ ih =>
    intro hP b hwf hl hv ha hD hpv hpa
    simp only [Exprs.bindSize, SizePack.add_val, SizePack.add_adj] at hv ha
    obtain ⟨hD1, hD2, hPV, hPA⟩ := distinct_append.1 hD
    rw [show pvs (Exprs.cons e es).placess = pvs e.places ∪ pvs es.placess from pvs_append _ _] at hpv ⊢
    rw [show pas (Exprs.cons e es).placess = pas e.places ∪ pas es.placess from pas_append _ _] at hpa ⊢
    obtain ⟨hv1, hv2, hvd, hvs1, hvs2, hvl, hvr⟩ := split_two hv hpv hPV
    obtain ⟨ha1, ha2, had, has1, has2, hal, har⟩ := split_two ha hpa hPA
    have h1 := hP e (by simp [Exprs.toList]) b hwf.1 hl.1 hv1 ha1 hD1 hvl hal
    have h2 := ih (fun x hx => hP x (by simp [Exprs.toList, hx])) (b.adv e.bindSize) hwf.2 hl.2 hv2 ha2 hD2 hvr har
    simp only [Exprs.bind, Exprs.bindSize, bind_adv]
    refine ⟨⟨h1.wb, h2.wb, hvd.mono h1.ownV h2.ownV, had.mono h1.ownA h2.ownA⟩, ?_, ?_⟩
    · exact Set.union_subset (h1.ownV.trans hvs1) (h2.ownV.trans hvs2)
    · exact Set.union_subset (h1.ownA.trans has1) (h2.ownA.trans has2)
  | _ => trivial

theorem bindN_unary {vok aok : ℕ → Bool} (op : UOp) (e : Expr α) (w : View) (ih : BindClaim vok aok e) : BindClaim vok aok (.unary op e w) := by
  intro b hwf hl hv ha hD hpv hpa
  have hsz : (Expr.unary op e w).bindSize = e.bindSize + ⟨w.size, w.size⟩ := by
    simp only [Expr.bindSize, Expr.single]; rw [SizePack.add_comm']
  rw [hsz] at hv ha hpv hpa ⊢
  obtain ⟨hv1, hv2, hvd, hvs1, hvs2, hvp⟩ := split_root hv hpv
  obtain ⟨ha1, ha2, had, has1, has2, hap⟩ := split_root ha hpa
  have h1 := ih b hwf.1 hl hv1 ha1 hD hvp hap
  simp only [Expr.bind, bind_adv]
  exact ⟨⟨h1.wb, hv2, ha2, (hvd.mono_left h1.ownV).symm, (had.mono_left h1.ownA).symm⟩,
    Set.union_subset (h1.ownV.trans hvs1) hvs2, Set.union_subset (h1.ownA.trans has1) has2⟩

theorem bindN_transpose {vok aok : ℕ → Bool} (e : Expr α) (w : View) (ih : BindClaim vok aok e) : BindClaim vok aok (.transpose e w) := by
  intro b hwf hl hv ha hD hpv hpa
  have hsz : (Expr.transpose e w).bindSize = e.bindSize + ⟨w.size, w.size⟩ := by
    simp only [Expr.bindSize, Expr.single]
  rw [hsz] at hv ha hpv hpa ⊢
  obtain ⟨hv1, hv2, hvd, hvs1, hvs2, hvp⟩ := split_root hv hpv
  obtain ⟨ha1, ha2, had, has1, has2, hap⟩ := split_root ha hpa
  have h1 := ih b hwf.1 hl hv1 ha1 hD hvp hap
  simp only [Expr.bind, bind_adv]
  exact ⟨⟨h1.wb, hv2, ha2, (hvd.mono_left h1.ownV).symm, (had.mono_left h1.ownA).symm⟩,
    Set.union_subset (h1.ownV.trans hvs1) hvs2, Set.union_subset (h1.ownA.trans has1) has2⟩

theorem bindN_pow {vok aok : ℕ → Bool} (n : ℤ) (e : Expr α) (w : View) (ih : BindClaim vok aok e) : BindClaim vok aok (.pow n e w) := by
  intro b hwf hl hv ha hD hpv hpa
  by_cases hn : n = 0 ∨ n = 1
  · have hsz : (Expr.pow n e w).bindSize = e.bindSize + ⟨w.size, 0⟩ := by
      simp only [Expr.bindSize, Expr.single]; rw [if_pos hn, SizePack.add_comm']
    rw [hsz] at hv ha hpv hpa ⊢
    obtain ⟨hv1, hv2, hvd, hvs1, hvs2, hvp⟩ := split_root hv hpv
    obtain ⟨ha1, ha2, had, has1, has2, hap⟩ := split_root ha hpa
    have h1 := ih b hwf.1 hl hv1 ha1 hD hvp hap
    simp only [Expr.bind, bind_adv]
    rw [if_pos hn]
    refine ⟨⟨h1.wb, hv2, (hvd.mono_left h1.ownV).symm, fun h => absurd hn h⟩,
      Set.union_subset (h1.ownV.trans hvs1) hvs2, Set.union_subset (h1.ownA.trans has1) ?_⟩
    simp only [Expr.adjRoot]
    rw [if_pos hn]
    exact Set.empty_subset _
  · have hsz : (Expr.pow n e w).bindSize = e.bindSize + ⟨w.size, w.size⟩ := by
      simp only [Expr.bindSize, Expr.single]; rw [if_neg hn, SizePack.add_comm']
    rw [hsz] at hv ha hpv hpa ⊢
    obtain ⟨hv1, hv2, hvd, hvs1, hvs2, hvp⟩ := split_root hv hpv
    obtain ⟨ha1, ha2, had, has1, has2, hap⟩ := split_root ha hpa
    have h1 := ih b hwf.1 hl hv1 ha1 hD hvp hap
    simp only [Expr.bind, bind_adv]
    rw [if_neg hn]
    refine ⟨⟨h1.wb, hv2, (hvd.mono_left h1.ownV).symm, fun h => ⟨ha2, (had.mono_left h1.ownA).symm⟩⟩,
      Set.union_subset (h1.ownV.trans hvs1) hvs2, Set.union_subset (h1.ownA.trans has1) ?_⟩
    simp only [Expr.adjRoot]
    rw [if_neg hn]
    exact has2

theorem bindN_prodElem {vok aok : ℕ → Bool} (e : Expr α) (w : View) (c : Option ℕ) (ih : BindClaim vok aok e) : BindClaim vok aok (.prodElem e w c) := by
  intro b hwf hl hv ha hD hpv hpa
  have hsz : (Expr.prodElem e w c).bindSize = e.bindSize + ⟨w.size, e.size⟩ := by
    simp only [Expr.bindSize, Expr.single]
  rw [hsz] at hv ha hpv hpa ⊢
  obtain ⟨hv1, hv2, hvd, hvs1, hvs2, hvp⟩ := split_root hv hpv
  obtain ⟨ha1, ha2, had, has1, has2, hap⟩ := split_root ha hpa
  have h1 := ih b hwf.1 hl hv1 ha1 hD hvp hap
  have hse : (e.bind b).1.size = e.size := by rw [Expr.size, Expr.shape_of_strip (bind_strip e b), Expr.size]
  simp only [Expr.bind, bind_adv]
  refine ⟨⟨h1.wb, hv2, by rw [hse]; exact ha2, (hvd.mono_left h1.ownV).symm, by rw [hse]; exact (had.mono_left h1.ownA).symm⟩,
    Set.union_subset (h1.ownV.trans hvs1) hvs2, Set.union_subset (h1.ownA.trans has1) ?_⟩
  simp only [Expr.adjRoot]
  rw [hse]
  exact has2

theorem bindN_binary {vok aok : ℕ → Bool} (op : BOp) (l r : Expr α) (w : View) (ihl : BindClaim vok aok l) (ihr : BindClaim vok aok r) : BindClaim vok aok (.binary op l r w) := by
  intro b hwf hl hv ha hD hpv hpa
  obtain ⟨hD1, hD2, hPV, hPA⟩ := distinct_append.1 hD
  rw [show pvs (Expr.binary op l r w).places = pvs l.places ∪ pvs r.places from pvs_append _ _] at hpv ⊢
  rw [show pas (Expr.binary op l r w).places = pas l.places ∪ pas r.places from pas_append _ _] at hpa ⊢
  by_cases hn : op.isComparison = true
  · have hsz : (Expr.binary op l r w).bindSize = l.bindSize + r.bindSize + ⟨w.size, 0⟩ := by
      simp only [Expr.bindSize, Expr.single]; rw [if_pos hn, SizePack.add_assoc', SizePack.add_comm']
    rw [hsz] at hv ha hpv hpa ⊢
    obtain ⟨hv1, hv2, hvd, hvs1, hvs2, hvp⟩ := split_root hv hpv
    obtain ⟨ha1, ha2, had, has1, has2, hap⟩ := split_root ha hpa
    obtain ⟨hv3, hv4, hvd2, hvs3, hvs4, hvl, hvr⟩ := split_two hv1 hvp hPV
    obtain ⟨ha3, ha4, had2, has3, has4, hal, har⟩ := split_two ha1 hap hPA
    have h1 := ihl b hwf.1 hl.1 hv3 ha3 hD1 hvl hal
    have h2 := ihr (b.adv l.bindSize) hwf.2.1 hl.2 hv4 ha4 hD2 hvr har
    have hoV := Set.union_subset (h1.ownV.trans hvs3) (h2.ownV.trans hvs4)
    have hoA := Set.union_subset (h1.ownA.trans has3) (h2.ownA.trans has4)
    simp only [Expr.bind, bind_adv, Pack.adv_adv]
    rw [if_pos hn]
    refine ⟨⟨h1.wb, h2.wb, hvd2.mono h1.ownV h2.ownV, had2.mono h1.ownA h2.ownA, hv2, (hvd.mono_left hoV).symm,
      fun h => by rw [hn] at h; exact absurd h (by simp)⟩,
      Set.union_subset (hoV.trans hvs1) hvs2, Set.union_subset (hoA.trans has1) ?_⟩
    simp only [Expr.adjRoot]
    rw [if_pos hn]
    exact Set.empty_subset _
  · have hsz : (Expr.binary op l r w).bindSize = l.bindSize + r.bindSize + ⟨w.size, w.size⟩ := by
      simp only [Expr.bindSize, Expr.single]; rw [if_neg hn, SizePack.add_assoc', SizePack.add_comm']
    rw [hsz] at hv ha hpv hpa ⊢
    obtain ⟨hv1, hv2, hvd, hvs1, hvs2, hvp⟩ := split_root hv hpv
    obtain ⟨ha1, ha2, had, has1, has2, hap⟩ := split_root ha hpa
    obtain ⟨hv3, hv4, hvd2, hvs3, hvs4, hvl, hvr⟩ := split_two hv1 hvp hPV
    obtain ⟨ha3, ha4, had2, has3, has4, hal, har⟩ := split_two ha1 hap hPA
    have h1 := ihl b hwf.1 hl.1 hv3 ha3 hD1 hvl hal
    have h2 := ihr (b.adv l.bindSize) hwf.2.1 hl.2 hv4 ha4 hD2 hvr har
    have hoV := Set.union_subset (h1.ownV.trans hvs3) (h2.ownV.trans hvs4)
    have hoA := Set.union_subset (h1.ownA.trans has3) (h2.ownA.trans has4)
    simp only [Expr.bind, bind_adv, Pack.adv_adv]
    rw [if_neg hn]
    refine ⟨⟨h1.wb, h2.wb, hvd2.mono h1.ownV h2.ownV, had2.mono h1.ownA h2.ownA, hv2, (hvd.mono_left hoV).symm,
      fun h => ⟨ha2, (had.mono_left hoA).symm⟩⟩,
      Set.union_subset (hoV.trans hvs1) hvs2, Set.union_subset (hoA.trans has1) ?_⟩
    simp only [Expr.adjRoot]
    rw [if_neg hn]
    exact has2

theorem bindN_dot {vok aok : ℕ → Bool} (l r : Expr α) (w : View) (ihl : BindClaim vok aok l) (ihr : BindClaim vok aok r) : BindClaim vok aok (.dot l r w) := by
  intro b hwf hl hv ha hD hpv hpa
  obtain ⟨hD1, hD2, hPV, hPA⟩ := distinct_append.1 hD
  rw [show pvs (Expr.dot l r w).places = pvs l.places ∪ pvs r.places from pvs_append _ _] at hpv ⊢
  rw [show pas (Expr.dot l r w).places = pas l.places ∪ pas r.places from pas_append _ _] at hpa ⊢
  have hsz : (Expr.dot l r w).bindSize = l.bindSize + r.bindSize + ⟨w.size, w.size⟩ := by
    simp only [Expr.bindSize, Expr.single]; rw [SizePack.add_assoc', SizePack.add_comm']
  rw [hsz] at hv ha hpv hpa ⊢
  obtain ⟨hv1, hv2, hvd, hvs1, hvs2, hvp⟩ := split_root hv hpv
  obtain ⟨ha1, ha2, had, has1, has2, hap⟩ := split_root ha hpa
  obtain ⟨hv3, hv4, hvd2, hvs3, hvs4, hvl, hvr⟩ := split_two hv1 hvp hPV
  obtain ⟨ha3, ha4, had2, has3, has4, hal, har⟩ := split_two ha1 hap hPA
  have h1 := ihl b hwf.1 hl.1 hv3 ha3 hD1 hvl hal
  have h2 := ihr (b.adv l.bindSize) hwf.2.1 hl.2 hv4 ha4 hD2 hvr har
  have hoV := Set.union_subset (h1.ownV.trans hvs3) (h2.ownV.trans hvs4)
  have hoA := Set.union_subset (h1.ownA.trans has3) (h2.ownA.trans has4)
  simp only [Expr.bind, bind_adv, Pack.adv_adv]
  exact ⟨⟨h1.wb, h2.wb, hvd2.mono h1.ownV h2.ownV, had2.mono h1.ownA h2.ownA, hv2, ha2, (hvd.mono_left hoV).symm,
    (had.mono_left hoA).symm⟩,
    Set.union_subset (hoV.trans hvs1) hvs2, Set.union_subset (hoA.trans has1) has2⟩

theorem bindN_sumIter {vok aok : ℕ → Bool} (es : Exprs α) (w : View) (ih : ∀ e ∈ es.toList, BindClaim vok aok e) : BindClaim vok aok (.sumIter es w) := by
  intro b hwf hl hv ha hD hpv hpa
  have hsz : (Expr.sumIter es w).bindSize = es.bindSize + ⟨w.size, w.size⟩ := by
    simp only [Expr.bindSize, Expr.single]
  rw [hsz] at hv ha hpv hpa ⊢
  obtain ⟨hv1, hv2, hvd, hvs1, hvs2, hvp⟩ := split_root hv hpv
  obtain ⟨ha1, ha2, had, has1, has2, hap⟩ := split_root ha hpa
  have h1 := bindsN es ih b hwf.1 hl hv1 ha1 hD hvp hap
  simp only [Expr.bind, binds_adv]
  exact ⟨⟨h1.wb, hv2, ha2, (hvd.mono_left h1.ownV).symm, (had.mono_left h1.ownA).symm⟩,
    Set.union_subset (h1.ownV.trans hvs1) hvs2, Set.union_subset (h1.ownA.trans has1) has2⟩

theorem bindN_prodIter {vok aok : ℕ → Bool} (es : Exprs α) (w : View) (ih : ∀ e ∈ es.toList, BindClaim vok aok e) : BindClaim vok aok (.prodIter es w) := by
  intro b hwf hl hv ha hD hpv hpa
  have hsz : (Expr.prodIter es w).bindSize = es.bindSize + ⟨w.size, w.size⟩ := by
    simp only [Expr.bindSize, Expr.single]
  rw [hsz] at hv ha hpv hpa ⊢
  obtain ⟨hv1, hv2, hvd, hvs1, hvs2, hvp⟩ := split_root hv hpv
  obtain ⟨ha1, ha2, had, has1, has2, hap⟩ := split_root ha hpa
  have h1 := bindsN es ih b hwf.1 hl hv1 ha1 hD hvp hap
  simp only [Expr.bind, binds_adv]
  exact ⟨⟨h1.wb, hv2, ha2, (hvd.mono_left h1.ownV).symm, (had.mono_left h1.ownA).symm⟩,
    Set.union_subset (h1.ownV.trans hvs1) hvs2, Set.union_subset (h1.ownA.trans has1) has2⟩

theorem bindN_reduce {vok aok : ℕ → Bool} (op : RedOp) (es : Exprs α) (w : View) (ih : ∀ e ∈ es.toList, BindClaim vok aok e) : BindClaim vok aok (.reduce op es w) := by
  intro b hwf hl hv ha hD hpv hpa
  have hsz : (Expr.reduce op es w).bindSize = es.bindSize + ⟨w.size, 0⟩ := by
    simp only [Expr.bindSize, Expr.single]
  rw [hsz] at hv ha hpv hpa ⊢
  obtain ⟨hv1, hv2, hvd, hvs1, hvs2, hvp⟩ := split_root hv hpv
  obtain ⟨ha1, ha2, had, has1, has2, hap⟩ := split_root ha hpa
  have h1 := bindsN es ih b hwf.1 hl hv1 ha1 hD hvp hap
  simp only [Expr.bind, binds_adv]
  exact ⟨⟨h1.wb, hv2, (hvd.mono_left h1.ownV).symm⟩,
    Set.union_subset (h1.ownV.trans hvs1) hvs2, Set.union_subset (h1.ownA.trans has1) (Set.empty_subset _)⟩

theorem bindN_ifElse {vok aok : ℕ → Bool} (c x y : Expr α) (w : View) (ihc : BindClaim vok aok c) (ihx : BindClaim vok aok x) (ihy : BindClaim vok aok y) : BindClaim vok aok (.ifElse c x y w) := by
  intro b hwf hl hv ha hD hpv hpa
  obtain ⟨hD1, hD', hPV1, hPA1⟩ := distinct_append.1 hD
  obtain ⟨hD2, hD3, hPV2, hPA2⟩ := distinct_append.1 hD'
  have e1 : pvs (Expr.ifElse c x y w).places = pvs c.places ∪ (pvs x.places ∪ pvs y.places) := by rw [← pvs_append, ← pvs_append]; rfl
  have e2 : pas (Expr.ifElse c x y w).places = pas c.places ∪ (pas x.places ∪ pas y.places) := by rw [← pas_append, ← pas_append]; rfl
  rw [pvs_append] at hPV1
  rw [pas_append] at hPA1
  rw [e1] at hpv ⊢
  rw [e2] at hpa ⊢
  have hsz : (Expr.ifElse c x y w).bindSize = c.bindSize + (x.bindSize + y.bindSize) := by
    simp only [Expr.bindSize]; rw [SizePack.add_assoc']
  rw [hsz] at hv ha hpv hpa ⊢
  obtain ⟨hv1, hv2, hvd, hvs1, hvs2, hvc, hvq⟩ := split_two hv hpv hPV1
  obtain ⟨ha1, ha2, had, has1, has2, hac, haq⟩ := split_two ha hpa hPA1
  obtain ⟨hv3, hv4, hvd2, hvs3, hvs4, hvl, hvr⟩ := split_two hv2 hvq hPV2
  obtain ⟨ha3, ha4, had2, has3, has4, hal, har⟩ := split_two ha2 haq hPA2
  have h0 := ihc b hwf.1 hl.1 hv1 ha1 hD1 hvc hac
  have h1 := ihx (b.adv c.bindSize) hwf.2.1 hl.2.1 hv3 ha3 hD2 hvl hal
  have h2 := ihy ((b.adv c.bindSize).adv x.bindSize) hwf.2.2.1 hl.2.2 hv4 ha4 hD3 hvr har
  have hoV := Set.union_subset (h1.ownV.trans hvs3) (h2.ownV.trans hvs4)
  have hoA := Set.union_subset (h1.ownA.trans has3) (h2.ownA.trans has4)
  simp only [Expr.bind, bind_adv]
  refine ⟨⟨h0.wb, h1.wb, h2.wb, hvd.mono h0.ownV hoV, had.mono h0.ownA hoA, hvd2.mono h1.ownV h2.ownV,
    had2.mono h1.ownA h2.ownA⟩, ?_, ?_⟩
  · exact Set.union_subset (Set.union_subset (h0.ownV.trans hvs1) (hoV.trans hvs2)) (Set.empty_subset _)
  · exact Set.union_subset (Set.union_subset (h0.ownA.trans has1) (hoA.trans has2)) (Set.empty_subset _)

theorem rootN_unary {vok aok : ℕ → Bool} (op : UOp) (e : Expr α) (w : View) (ih : BindClaim vok aok e) : RootClaim vok aok (.unary op e w) := by
  intro v b hne hwf hl hsh hv ha hav haa hdv hda hD hpv hpa hrv hra
  obtain ⟨hroot, hsub, hsub'⟩ := root_sizes v
  have hs : (Expr.unary op e w).bindSize - (Expr.unary op e w).single = e.bindSize := hsub
  have hw : (⟨w.shape, v.val, v.adj⟩ : View).size = v.size := hroot w hsh
  rw [hs] at hv ha hdv hda hpv hpa ⊢
  have h := ih b hwf.1 hl hv ha hD hpv hpa
  have hdv' : Disjoint (rng v.val v.size) (e.bind b).1.ownV := ((disj_union hdv hrv).mono_left h.ownV).symm
  have hda' : Disjoint (rng v.adj v.size) (e.bind b).1.ownA := ((disj_union hda hra).mono_left h.ownA).symm
  refine ⟨⟨h.wb, ?_, ?_, ?_, ?_⟩, h.ownV, h.ownA, rfl, Or.inr ⟨rfl, rfl, rfl, ?_, ?_⟩⟩
  · exact hw ▸ hav
  · exact hw ▸ haa
  · exact hw ▸ hdv'
  · exact hw ▸ hda'
  · exact hw ▸ subset_rfl
  · exact hw ▸ subset_rfl

theorem rootN_transpose {vok aok : ℕ → Bool} (e : Expr α) (w : View) (ih : BindClaim vok aok e) : RootClaim vok aok (.transpose e w) := by
  intro v b hne hwf hl hsh hv ha hav haa hdv hda hD hpv hpa hrv hra
  obtain ⟨hroot, hsub, hsub'⟩ := root_sizes v
  have hs : (Expr.transpose e w).bindSize - (Expr.transpose e w).single = e.bindSize := hsub'
  have hw : (⟨w.shape, v.val, v.adj⟩ : View).size = v.size := hroot w hsh
  rw [hs] at hv ha hdv hda hpv hpa ⊢
  have h := ih b hwf.1 hl hv ha hD hpv hpa
  have hdv' : Disjoint (rng v.val v.size) (e.bind b).1.ownV := ((disj_union hdv hrv).mono_left h.ownV).symm
  have hda' : Disjoint (rng v.adj v.size) (e.bind b).1.ownA := ((disj_union hda hra).mono_left h.ownA).symm
  refine ⟨⟨h.wb, ?_, ?_, ?_, ?_⟩, h.ownV, h.ownA, rfl, Or.inr ⟨rfl, rfl, rfl, ?_, ?_⟩⟩
  · exact hw ▸ hav
  · exact hw ▸ haa
  · exact hw ▸ hdv'
  · exact hw ▸ hda'
  · exact hw ▸ subset_rfl
  · exact hw ▸ subset_rfl

theorem rootN_pow {vok aok : ℕ → Bool} (n : ℤ) (e : Expr α) (w : View) (ih : BindClaim vok aok e) : RootClaim vok aok (.pow n e w) := by
  intro v b hne hwf hl hsh hv ha hav haa hdv hda hD hpv hpa hrv hra
  obtain ⟨hroot, hsub, hsub'⟩ := root_sizes v
  have hs : (Expr.pow n e w).bindSize - (Expr.pow n e w).single = e.bindSize := hsub
  have hw : (⟨w.shape, v.val, v.adj⟩ : View).size = v.size := hroot w hsh
  rw [hs] at hv ha hdv hda hpv hpa ⊢
  have h := ih b hwf.1 hl hv ha hD hpv hpa
  have hdv' : Disjoint (rng v.val v.size) (e.bind b).1.ownV := ((disj_union hdv hrv).mono_left h.ownV).symm
  have hda' : Disjoint (rng v.adj v.size) (e.bind b).1.ownA := ((disj_union hda hra).mono_left h.ownA).symm
  have hsv : rng v.val (⟨w.shape, v.val, v.adj⟩ : View).size ⊆ rng v.val v.size := hw ▸ subset_rfl
  have hsa : rng v.adj (⟨w.shape, v.val, v.adj⟩ : View).size ⊆ rng v.adj v.size := hw ▸ subset_rfl
  by_cases hn : n = 0 ∨ n = 1
  · simp only [Expr.bind, if_pos hn]
    refine ⟨⟨h.wb, hw ▸ hav, hw ▸ hdv', fun h => absurd hn h⟩, h.ownV, h.ownA, rfl, Or.inr ⟨rfl, rfl, rfl, hsv, ?_⟩⟩
    simp only [Expr.rebind, Expr.adjRoot, if_pos hn]
    exact Set.empty_subset _
  · simp only [Expr.bind, if_neg hn]
    refine ⟨⟨h.wb, hw ▸ hav, hw ▸ hdv', fun _ => ⟨hw ▸ haa, hw ▸ hda'⟩⟩, h.ownV, h.ownA, rfl, Or.inr ⟨rfl, rfl, rfl, hsv, ?_⟩⟩
    simp only [Expr.rebind, Expr.adjRoot, if_neg hn]
    exact hsa

theorem rootN_binary {vok aok : ℕ → Bool} (op : BOp) (l r : Expr α) (w : View) (ihl : BindClaim vok aok l) (ihr : BindClaim vok aok r) : RootClaim vok aok (.binary op l r w) := by
  intro v b hne hwf hl hsh hv ha hav haa hdv hda hD hpv hpa hrv hra
  obtain ⟨hroot, hsub, hsub'⟩ := root_sizes v
  obtain ⟨hD1, hD2, hPV, hPA⟩ := distinct_append.1 hD
  rw [show pvs (Expr.binary op l r w).places = pvs l.places ∪ pvs r.places from pvs_append _ _] at hpv hrv ⊢
  rw [show pas (Expr.binary op l r w).places = pas l.places ∪ pas r.places from pas_append _ _] at hpa hra ⊢
  have hs : (Expr.binary op l r w).bindSize - (Expr.binary op l r w).single = l.bindSize + r.bindSize := by
    simp only [Expr.bindSize]; rw [SizePack.add_assoc']; exact hsub
  have hw : (⟨w.shape, v.val, v.adj⟩ : View).size = v.size := hroot w hsh
  rw [hs] at hv ha hdv hda hpv hpa ⊢
  obtain ⟨hv3, hv4, hvd2, hvs3, hvs4, hvl, hvr⟩ := split_two hv hpv hPV
  obtain ⟨ha3, ha4, had2, has3, has4, hal, har⟩ := split_two ha hpa hPA
  have h1 := ihl b hwf.1 hl.1 hv3 ha3 hD1 hvl hal
  have h2 := ihr (b.adv l.bindSize) hwf.2.1 hl.2 hv4 ha4 hD2 hvr har
  have hoV := Set.union_subset (h1.ownV.trans hvs3) (h2.ownV.trans hvs4)
  have hoA := Set.union_subset (h1.ownA.trans has3) (h2.ownA.trans has4)
  have hdv' : Disjoint (rng v.val v.size) ((l.bind b).1.ownV ∪ (r.bind (b.adv l.bindSize)).1.ownV) := ((disj_union hdv hrv).mono_left hoV).symm
  have hda' : Disjoint (rng v.adj v.size) ((l.bind b).1.ownA ∪ (r.bind (b.adv l.bindSize)).1.ownA) := ((disj_union hda hra).mono_left hoA).symm
  have hsv : rng v.val (⟨w.shape, v.val, v.adj⟩ : View).size ⊆ rng v.val v.size := hw ▸ subset_rfl
  have hsa : rng v.adj (⟨w.shape, v.val, v.adj⟩ : View).size ⊆ rng v.adj v.size := hw ▸ subset_rfl
  by_cases hn : op.isComparison = true
  · simp only [Expr.bind, bind_adv, if_pos hn]
    refine ⟨⟨h1.wb, h2.wb, hvd2.mono h1.ownV h2.ownV, had2.mono h1.ownA h2.ownA, hw ▸ hav, hw ▸ hdv',
      fun h => by rw [hn] at h; exact absurd h (by simp)⟩, hoV, hoA, rfl, Or.inr ⟨rfl, rfl, rfl, hsv, ?_⟩⟩
    simp only [Expr.rebind, Expr.adjRoot, if_pos hn]
    exact Set.empty_subset _
  · simp only [Expr.bind, bind_adv, if_neg hn]
    refine ⟨⟨h1.wb, h2.wb, hvd2.mono h1.ownV h2.ownV, had2.mono h1.ownA h2.ownA, hw ▸ hav, hw ▸ hdv',
      fun _ => ⟨hw ▸ haa, hw ▸ hda'⟩⟩, hoV, hoA, rfl, Or.inr ⟨rfl, rfl, rfl, hsv, ?_⟩⟩
    simp only [Expr.rebind, Expr.adjRoot, if_neg hn]
    exact hsa

theorem rootN_dot {vok aok : ℕ → Bool} (l r : Expr α) (w : View) (ihl : BindClaim vok aok l) (ihr : BindClaim vok aok r) : RootClaim vok aok (.dot l r w) := by
  intro v b hne hwf hl hsh hv ha hav haa hdv hda hD hpv hpa hrv hra
  obtain ⟨hroot, hsub, hsub'⟩ := root_sizes v
  obtain ⟨hD1, hD2, hPV, hPA⟩ := distinct_append.1 hD
  rw [show pvs (Expr.dot l r w).places = pvs l.places ∪ pvs r.places from pvs_append _ _] at hpv hrv ⊢
  rw [show pas (Expr.dot l r w).places = pas l.places ∪ pas r.places from pas_append _ _] at hpa hra ⊢
  have hs : (Expr.dot l r w).bindSize - (Expr.dot l r w).single = l.bindSize + r.bindSize := by
    simp only [Expr.bindSize]; rw [SizePack.add_assoc']; exact hsub
  have hw : (⟨w.shape, v.val, v.adj⟩ : View).size = v.size := hroot w hsh
  rw [hs] at hv ha hdv hda hpv hpa ⊢
  obtain ⟨hv3, hv4, hvd2, hvs3, hvs4, hvl, hvr⟩ := split_two hv hpv hPV
  obtain ⟨ha3, ha4, had2, has3, has4, hal, har⟩ := split_two ha hpa hPA
  have h1 := ihl b hwf.1 hl.1 hv3 ha3 hD1 hvl hal
  have h2 := ihr (b.adv l.bindSize) hwf.2.1 hl.2 hv4 ha4 hD2 hvr har
  have hoV := Set.union_subset (h1.ownV.trans hvs3) (h2.ownV.trans hvs4)
  have hoA := Set.union_subset (h1.ownA.trans has3) (h2.ownA.trans has4)
  have hdv' : Disjoint (rng v.val v.size) ((l.bind b).1.ownV ∪ (r.bind (b.adv l.bindSize)).1.ownV) := ((disj_union hdv hrv).mono_left hoV).symm
  have hda' : Disjoint (rng v.adj v.size) ((l.bind b).1.ownA ∪ (r.bind (b.adv l.bindSize)).1.ownA) := ((disj_union hda hra).mono_left hoA).symm
  have hsv : rng v.val (⟨w.shape, v.val, v.adj⟩ : View).size ⊆ rng v.val v.size := hw ▸ subset_rfl
  have hsa : rng v.adj (⟨w.shape, v.val, v.adj⟩ : View).size ⊆ rng v.adj v.size := hw ▸ subset_rfl
  simp only [Expr.bind, bind_adv]
  exact ⟨⟨h1.wb, h2.wb, hvd2.mono h1.ownV h2.ownV, had2.mono h1.ownA h2.ownA, hw ▸ hav, hw ▸ haa, hw ▸ hdv', hw ▸ hda'⟩,
    hoV, hoA, rfl, Or.inr ⟨rfl, rfl, rfl, hsv, hsa⟩⟩

theorem rootN_sumIter {vok aok : ℕ → Bool} (es : Exprs α) (w : View) (ih : ∀ e ∈ es.toList, BindClaim vok aok e) : RootClaim vok aok (.sumIter es w) := by
  intro v b hne hwf hl hsh hv ha hav haa hdv hda hD hpv hpa hrv hra
  obtain ⟨hroot, hsub, hsub'⟩ := root_sizes v
  have hs : (Expr.sumIter es w).bindSize - (Expr.sumIter es w).single = es.bindSize := hsub'
  have hw : (⟨w.shape, v.val, v.adj⟩ : View).size = v.size := hroot w hsh
  rw [hs] at hv ha hdv hda hpv hpa ⊢
  have h := bindsN es ih b hwf.1 hl hv ha hD hpv hpa
  have hdv' : Disjoint (rng v.val v.size) (es.bind b).1.ownVs := ((disj_union hdv hrv).mono_left h.ownV).symm
  have hda' : Disjoint (rng v.adj v.size) (es.bind b).1.ownAs := ((disj_union hda hra).mono_left h.ownA).symm
  refine ⟨⟨h.wb, ?_, ?_, ?_, ?_⟩, h.ownV, h.ownA, rfl, Or.inr ⟨rfl, rfl, rfl, ?_, ?_⟩⟩
  · exact hw ▸ hav
  · exact hw ▸ haa
  · exact hw ▸ hdv'
  · exact hw ▸ hda'
  · exact hw ▸ subset_rfl
  · exact hw ▸ subset_rfl

theorem rootN_prodIter {vok aok : ℕ → Bool} (es : Exprs α) (w : View) (ih : ∀ e ∈ es.toList, BindClaim vok aok e) : RootClaim vok aok (.prodIter es w) := by
  intro v b hne hwf hl hsh hv ha hav haa hdv hda hD hpv hpa hrv hra
  obtain ⟨hroot, hsub, hsub'⟩ := root_sizes v
  have hs : (Expr.prodIter es w).bindSize - (Expr.prodIter es w).single = es.bindSize := hsub'
  have hw : (⟨w.shape, v.val, v.adj⟩ : View).size = v.size := hroot w hsh
  rw [hs] at hv ha hdv hda hpv hpa ⊢
  have h := bindsN es ih b hwf.1 hl hv ha hD hpv hpa
  have hdv' : Disjoint (rng v.val v.size) (es.bind b).1.ownVs := ((disj_union hdv hrv).mono_left h.ownV).symm
  have hda' : Disjoint (rng v.adj v.size) (es.bind b).1.ownAs := ((disj_union hda hra).mono_left h.ownA).symm
  refine ⟨⟨h.wb, ?_, ?_, ?_, ?_⟩, h.ownV, h.ownA, rfl, Or.inr ⟨rfl, rfl, rfl, ?_, ?_⟩⟩
  · exact hw ▸ hav
  · exact hw ▸ haa
  · exact hw ▸ hdv'
  · exact hw ▸ hda'
  · exact hw ▸ subset_rfl
  · exact hw ▸ subset_rfl

theorem rootN_reduce {vok aok : ℕ → Bool} (op : RedOp) (es : Exprs α) (w : View) (ih : ∀ e ∈ es.toList, BindClaim vok aok e) : RootClaim vok aok (.reduce op es w) := by
  intro v b hne hwf hl hsh hv ha hav haa hdv hda hD hpv hpa hrv hra
  obtain ⟨hroot, hsub, hsub'⟩ := root_sizes v
  have hs : (Expr.reduce op es w).bindSize - (Expr.reduce op es w).single = es.bindSize := hsub'
  have hw : (⟨w.shape, v.val, v.adj⟩ : View).size = v.size := hroot w hsh
  rw [hs] at hv ha hdv hda hpv hpa ⊢
  have h := bindsN es ih b hwf.1 hl hv ha hD hpv hpa
  have hdv' : Disjoint (rng v.val v.size) (es.bind b).1.ownVs := ((disj_union hdv hrv).mono_left h.ownV).symm
  refine ⟨⟨h.wb, ?_, ?_⟩, h.ownV, h.ownA, rfl, Or.inr ⟨rfl, rfl, rfl, ?_, Set.empty_subset _⟩⟩
  · exact hw ▸ hav
  · exact hw ▸ hdv'
  · exact hw ▸ subset_rfl

theorem rootN_ifElse {vok aok : ℕ → Bool} (c x y : Expr α) (w : View) (ihc : BindClaim vok aok c) (ihx : BindClaim vok aok x) (ihy : BindClaim vok aok y) : RootClaim vok aok (.ifElse c x y w) := by
  intro v b hne hwf hl hsh hv ha hav haa hdv hda hD hpv hpa hrv hra
  have hs : (Expr.ifElse c x y w).bindSize - (Expr.ifElse c x y w).single = (Expr.ifElse c x y w).bindSize :=
    SizePack.ext' (Nat.sub_zero _) (Nat.sub_zero _)
  rw [hs] at hv ha hdv hda hpv hpa ⊢
  have h := bindN_ifElse c x y w ihc ihx ihy b hwf hl hv ha hD hpv hpa
  refine ⟨?_, ?_, ?_, rfl, Or.inl ⟨rfl, rfl⟩⟩
  · exact h.wb
  · exact fun a ha => h.ownV (Or.inl ha)
  · exact fun a ha => h.ownA (Or.inl ha)

/-- one assignment -/
theorem bindN_eq {vok aok : ℕ → Bool} (v : View) (e : Expr α) (w : View) (ih : RootClaim vok aok e) : BindStm vok aok (.eq v e w) := by
  intro b hwf hl hv ha hD hpv hpa
  obtain ⟨hD1, hPV, hPA⟩ := distinct_cons.1 hD
  rw [show pvs (Expr.eq v e w).places = rng v.val v.size ∪ pvs e.places from pvs_cons _ _] at hpv ⊢
  rw [show pas (Expr.eq v e w).places = rng v.adj v.size ∪ pas e.places from pas_cons _ _] at hpa ⊢
  obtain ⟨hv1, hv2⟩ := Set.disjoint_union_right.1 hpv
  obtain ⟨ha1, ha2⟩ := Set.disjoint_union_right.1 hpa
  have h := ih v b hwf.2.2.2.2 hwf.1 hl.2.2 hwf.2.2.1 hv ha hl.1 hl.2.1 hv1 ha1 hD1 hv2 ha2 hPV.symm hPA.symm
  have hiv : Disjoint ((e.bind b).1.rebind v.val v.adj).innerV (rng v.val v.size) := (disj_union hv1 hPV.symm).mono_left h.inV
  have hia : Disjoint ((e.bind b).1.rebind v.val v.adj).innerA (rng v.adj v.size) := (disj_union ha1 hPA.symm).mono_left h.inA
  refine ⟨⟨h.wb, hl.1, hl.2.1, rfl, hiv, hia, h.notProd, h.root⟩, ?_, ?_⟩
  · refine Set.union_subset (Set.union_subset (Set.union_subset ?_ ?_) ?_) (Set.empty_subset _)
    · exact h.inV.trans (Set.union_subset_union_right _ Set.subset_union_right)
    · rcases h.root with h' | h'
      · rw [h'.1]; exact Set.empty_subset _
      · exact h'.2.2.2.1.trans (Set.subset_union_left.trans Set.subset_union_right)
    · exact Set.subset_union_left.trans Set.subset_union_right
  · refine Set.union_subset (Set.union_subset (Set.union_subset ?_ ?_) ?_) (Set.empty_subset _)
    · exact h.inA.trans (Set.union_subset_union_right _ Set.subset_union_right)
    · rcases h.root with h' | h'
      · rw [h'.2]; exact Set.empty_subset _
      · exact h'.2.2.2.2.trans (Set.subset_union_left.trans Set.subset_union_right)
    · exact Set.subset_union_left.trans Set.subset_union_right

theorem glueN {vok aok : ℕ → Bool} {l r : Expr α} {w : View} {b : Pack}
    (hl : ∀ b : Pack, accessible vok b.val l.bindSize.val → accessible aok b.adj l.bindSize.adj →
      Distinct l.places → Disjoint (rng b.val l.bindSize.val) (pvs l.places) → Disjoint (rng b.adj l.bindSize.adj) (pas l.places) →
      BindOkN vok aok (l.bind b).1 b l.bindSize (pvs l.places) (pas l.places))
    (hr : ∀ b : Pack, accessible vok b.val r.bindSize.val → accessible aok b.adj r.bindSize.adj →
      Distinct r.places → Disjoint (rng b.val r.bindSize.val) (pvs r.places) → Disjoint (rng b.adj r.bindSize.adj) (pas r.places) →
      BindOkN vok aok (r.bind b).1 b r.bindSize (pvs r.places) (pas r.places))
    (hv : accessible vok b.val (Expr.glue l r w).bindSize.val) (ha : accessible aok b.adj (Expr.glue l r w).bindSize.adj)
    (hD : Distinct (Expr.glue l r w).places) (hpv : Disjoint (rng b.val (Expr.glue l r w).bindSize.val) (pvs (Expr.glue l r w).places))
    (hpa : Disjoint (rng b.adj (Expr.glue l r w).bindSize.adj) (pas (Expr.glue l r w).places)) :
    BindOkN vok aok ((Expr.glue l r w).bind b).1 b (Expr.glue l r w).bindSize (pvs (Expr.glue l r w).places) (pas (Expr.glue l r w).places) := by
  obtain ⟨hD1, hD2, hPV, hPA⟩ := distinct_append.1 hD
  rw [show pvs (Expr.glue l r w).places = pvs l.places ∪ pvs r.places from pvs_append _ _] at hpv ⊢
  rw [show pas (Expr.glue l r w).places = pas l.places ∪ pas r.places from pas_append _ _] at hpa ⊢
  have hsz : (Expr.glue l r w).bindSize = l.bindSize + r.bindSize := rfl
  rw [hsz] at hv ha hpv hpa ⊢
  obtain ⟨hv1, hv2, hvd, hvs1, hvs2, hvl, hvr⟩ := split_two hv hpv hPV
  obtain ⟨ha1, ha2, had, has1, has2, hal, har⟩ := split_two ha hpa hPA
  have h1 := hl b hv1 ha1 hD1 hvl hal
  have h2 := hr (b.adv l.bindSize) hv2 ha2 hD2 hvr har
  simp only [Expr.bind, bind_adv]
  refine ⟨⟨h1.wb, h2.wb, hvd.mono h1.ownV h2.ownV, had.mono h1.ownA h2.ownA, rfl⟩, ?_, ?_⟩
  · exact Set.union_subset (Set.union_subset (h1.ownV.trans hvs1) (h2.ownV.trans hvs2)) (Set.empty_subset _)
  · exact Set.union_subset (Set.union_subset (h1.ownA.trans has1) (h2.ownA.trans has2)) (Set.empty_subset _)

theorem bind_all (vok aok : ℕ → Bool) (e : Expr α) : BindClaim vok aok e ∧ BindStm vok aok e ∧ RootClaim vok aok e := by
  induction e using Expr.induct with
  | var v =>
    exact ⟨fun b _ hl _ _ _ _ _ => ⟨hl, by simp [Expr.bind, Expr.ownV, Expr.innerV, Expr.valRoot], by simp [Expr.bind, Expr.ownA, Expr.innerA, Expr.adjRoot]⟩,
      fun _ h => h.elim, fun _ _ h => h.elim⟩
  | const sh c =>
    exact ⟨fun b _ hl _ _ _ _ _ => ⟨hl, by simp [Expr.bind, Expr.ownV, Expr.innerV, Expr.valRoot], by simp [Expr.bind, Expr.ownA, Expr.innerA, Expr.adjRoot]⟩,
      fun _ h => h.elim, fun _ _ _ _ _ _ _ _ _ _ _ _ _ _ _ _ _ => ⟨trivial, Set.empty_subset _, Set.empty_subset _, rfl, Or.inl ⟨rfl, rfl⟩⟩⟩
  | cview sh p =>
    exact ⟨fun b _ hl _ _ _ _ _ => ⟨hl, by simp [Expr.bind, Expr.ownV, Expr.innerV, Expr.valRoot], by simp [Expr.bind, Expr.ownA, Expr.innerA, Expr.adjRoot]⟩,
      fun _ h => h.elim, fun _ _ _ _ hl _ _ _ _ _ _ _ _ _ _ _ _ => ⟨hl, Set.empty_subset _, Set.empty_subset _, rfl, Or.inl ⟨rfl, rfl⟩⟩⟩
  | unary op e w ih => exact ⟨bindN_unary op e w ih.1, fun _ h => h.elim, rootN_unary op e w ih.1⟩
  | transpose e w ih => exact ⟨bindN_transpose e w ih.1, fun _ h => h.elim, rootN_transpose e w ih.1⟩
  | pow n e w ih => exact ⟨bindN_pow n e w ih.1, fun _ h => h.elim, rootN_pow n e w ih.1⟩
  | prodElem e w c ih => exact ⟨bindN_prodElem e w c ih.1, fun _ h => h.elim, fun _ _ h => h.elim⟩
  | binary op l r w ihl ihr => exact ⟨bindN_binary op l r w ihl.1 ihr.1, fun _ h => h.elim, rootN_binary op l r w ihl.1 ihr.1⟩
  | dot l r w ihl ihr => exact ⟨bindN_dot l r w ihl.1 ihr.1, fun _ h => h.elim, rootN_dot l r w ihl.1 ihr.1⟩
  | sumIter es w ih => exact ⟨bindN_sumIter es w fun e he => (ih e he).1, fun _ h => h.elim, rootN_sumIter es w fun e he => (ih e he).1⟩
  | prodIter es w ih => exact ⟨bindN_prodIter es w fun e he => (ih e he).1, fun _ h => h.elim, rootN_prodIter es w fun e he => (ih e he).1⟩
  | reduce op es w ih => exact ⟨bindN_reduce op es w fun e he => (ih e he).1, fun _ h => h.elim, rootN_reduce op es w fun e he => (ih e he).1⟩
  | ifElse c x y w ihc ihx ihy =>
    exact ⟨bindN_ifElse c x y w ihc.1 ihx.1 ihy.1, fun _ h => h.elim, rootN_ifElse c x y w ihc.1 ihx.1 ihy.1⟩
  | eq v e w ih => exact ⟨fun _ h => h.elim, bindN_eq v e w ih.2.2, fun _ _ _ h => h.elim⟩
  | glue l r w ihl ihr =>
    exact ⟨fun b hwf hl hv ha hD hpv hpa => glueN (fun b => ihl.2.1 b hwf.1 hl.1) (fun b => ihr.1 b hwf.2.1 hl.2) hv ha hD hpv hpa,
      fun b hwf hl hv ha hD hpv hpa => glueN (fun b => ihl.2.1 b hwf.1 hl.1) (fun b => ihr.2.1 b hwf.2.1 hl.2) hv ha hD hpv hpa,
      fun _ _ h => h.elim⟩
  | opEq => exact ⟨fun _ h => h.elim, fun _ h => h.elim, fun _ _ _ h => h.elim⟩
  | forEach => exact ⟨fun _ h => h.elim, fun _ h => h.elim, fun _ _ _ h => h.elim⟩

end FastAD
