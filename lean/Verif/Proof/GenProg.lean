import Verif.Proof.GenStmt

/-!
# Programs over an arbitrary scalar type
-/

namespace FastAD

variable {α : Type} [Zero α] [One α] [Add α] [Sub α] [Neg α] [Mul α] [Div α] [NatCast α] [IntCast α]
variable [Fn α] [HasInf α] [LinAlg α]
set_option linter.unusedSectionVars false

/-! ### Cells -/

/-- value cells of the placeholders assigned by a list of statements -/
def places (L : List (Expr α)) : Set ℕ := {a | ∃ x ∈ L, a ∈ x.place}

/-- value cells assigned by a list of statements -/
def tgts (L : List (Expr α)) : Set ℕ := {a | ∃ x ∈ L, a ∈ x.tgt}

/-- every statement needs only cells of `K` and placeholders assigned before -/
def NeedOk : Set ℕ → List (Expr α) → Prop
  | _, [] => True
  | K, x :: xs => x.need ⊆ K ∧ NeedOk (K ∪ x.place) xs

theorem Expr.ment_eq (x : Expr α) : x.ment = x.need ∪ x.place := by
  cases x with
  | opEq => exact (Set.union_empty _).symm
  | eq => rfl
  | _ => exact (Set.union_empty _).symm

theorem places_cons {x : Expr α} {xs : List (Expr α)} : places (x :: xs) = x.place ∪ places xs := by
  ext a
  simp [places]

theorem need_ok {K : Set ℕ} {L : List (Expr α)} (h1 : ∀ x ∈ L, x.need ⊆ K ∪ places L) (h2 : L.Pairwise After)
    (h3 : ∀ x ∈ L, Disjoint x.need x.place) : NeedOk K L := by
  induction L generalizing K with
  | nil => trivial
  | cons x xs ih =>
    obtain ⟨h4, h5⟩ := List.pairwise_cons.1 h2
    refine ⟨fun a ha => ?_, ih (fun y hy a ha => ?_) h5 fun y hy => h3 y (by simp [hy])⟩
    · rcases h1 x (by simp) ha with h | ⟨y, hy, h⟩
      · exact h
      · rcases List.mem_cons.1 hy with rfl | hy
        · exact absurd h (disj_left (h3 y (by simp)) ha)
        · exact absurd h (disj_left (h4 y hy) (by rw [Expr.ment_eq]; exact Or.inl ha))
    · rcases h1 y (by simp [hy]) ha with h | h
      · exact Or.inl (Or.inl h)
      · rw [places_cons] at h
        exact h.elim (fun h => Or.inl (Or.inr h)) Or.inr

theorem NeedOk.ment {K : Set ℕ} {L : List (Expr α)} (h : NeedOk K L) : ∀ x ∈ L, x.ment ⊆ K ∪ places L := by
  induction L generalizing K with
  | nil => intro x hx; simp at hx
  | cons y ys ih =>
    intro x hx a ha
    rw [places_cons]
    rcases List.mem_cons.1 hx with rfl | hx
    · rw [Expr.ment_eq] at ha
      exact ha.elim (fun h' => Or.inl (h.1 h')) fun h' => Or.inr (Or.inl h')
    · rcases ih h.2 x hx ha with (h' | h') | h'
      · exact Or.inl h'
      · exact Or.inr (Or.inl h')
      · exact Or.inr (Or.inr h')

/-! ### Meaning of a list of statements -/

/-- adjoints after the backward evaluation of the statements executed from store `m` -/
noncomputable def gbackL : List (Expr α) → (ℕ → α) → (ℕ → α) → (ℕ → α) → ℕ → α
  | [], _, _, A => A
  | x :: xs, m, seed, A => x.gbk m (if xs.isEmpty then seed else fun _ => 0) (gbackL xs (x.exactExec m) seed A)

/-- values after the backward evaluation of the statements executed from store `m`, given the values `h` before -/
def gundoL : List (Expr α) → (ℕ → α) → (ℕ → α) → ℕ → α
  | [], _, h => h
  | x :: xs, m, h => x.gundo m (gundoL xs (x.exactExec m) h)

def GPCs (BV : Set ℕ) : List (Expr α) → (ℕ → α) → (ℕ → α) → Prop
  | [], _, _ => True
  | x :: xs, m, h => x.GPC BV m h ∧ GPCs BV xs (x.exactExec m) h

theorem Expr.GPC.congr {vok aok : ℕ → Bool} {BV BA : Set ℕ} {x : Expr α} {m h h' : ℕ → α} (hb : StmtB vok aok BV BA x)
    (hc : x.GPC BV m h) (heq : ∀ a ∈ x.lv, h' a = h a) : x.GPC BV m h' := by
  by_cases hs : x.isStmt = false
  · obtain ⟨hb, _, _⟩ := hb.pure hs
    rw [GPC_pure hs] at hc ⊢
    refine Expr.Stored.congr x hc fun a ha => ?_
    rcases ha with ha | ha
    · rw [merge_in (hb.ownV ha), merge_in (hb.ownV ha)]
      exact heq a (by rw [hb.wf.lv]; exact ha)
    · rw [merge_out (disj_right hb.dV ha), merge_out (disj_right hb.dV ha)]
  · cases x with
    | eq v e w =>
      have hb : EqB vok aok BV BA v e w := hb
      refine Expr.Stored.congr e hc fun a ha => ?_
      have hroot : e.valRoot ⊆ rng v.val v.size := by
        rcases hb.root with h | h
        · rw [h.1]; exact Set.empty_subset _
        · exact h.2.2.2.1
      rcases ha with ha | ha
      · rcases ha with ha | ha
        · rw [merge_in (hb.inV ha), merge_in (hb.inV ha)]
          exact heq a ha
        · have := disj_right hb.dV (Or.inr (hroot ha))
          rw [merge_out this, merge_out this]
      · have := disj_right hb.dV (Or.inl ha)
        rw [merge_out this, merge_out this]
    | opEq op v e w c =>
      have hb : OpB vok aok BV BA v e w c := hb
      refine ⟨Expr.Stored.congr e hc.1 fun a ha => ?_, fun k hk => ?_⟩
      · rcases ha with ha | ha
        · rw [merge_in (hb.pure.ownV ha), merge_in (hb.pure.ownV ha)]
          exact heq a (Or.inl ha)
        · rw [merge_out (disj_right hb.pure.dV ha), merge_out (disj_right hb.pure.dV ha)]
      · rw [heq _ (Or.inr (add_mem_rng (by rw [View.size, hb.cshape]; exact hk)))]
        exact hc.2 k hk
    | _ => simp [Expr.isStmt] at hs

/-- undoing a statement changes its target only and depends on the given values pointwise -/
theorem Expr.gundo_off {x : Expr α} {m h : ℕ → α} {a : ℕ} (ha : a ∉ x.tgt) : x.gundo m h a = h a := by
  cases x with
  | eq v e w =>
    show (if e.isIf = true then h else assign h v (e.post m)) a = h a
    split
    · rfl
    · exact assign_off ha
  | opEq op v e w c => simp only [Expr.gundo]; exact assign_off ha
  | _ => rfl

theorem Expr.gundo_congr {x : Expr α} {m h h' : ℕ → α} {a : ℕ} (heq : h a = h' a) : x.gundo m h a = x.gundo m h' a := by
  cases x with
  | eq v e w =>
    show (if e.isIf = true then h else assign h v (e.post m)) a = (if e.isIf = true then h' else assign h' v (e.post m)) a
    split
    · exact heq
    · simp only [assign, heq]
  | opEq op v e w c => simp only [Expr.gundo, assign, heq]
  | _ => exact heq

theorem gundoL_congr {L : List (Expr α)} {m h h' : ℕ → α} {a : ℕ} (heq : h a = h' a) : gundoL L m h a = gundoL L m h' a := by
  induction L generalizing m with
  | nil => exact heq
  | cons x xs ih => exact Expr.gundo_congr ih

theorem gundoL_off {L : List (Expr α)} {m h : ℕ → α} {a : ℕ} (ha : a ∉ tgts L) : gundoL L m h a = h a := by
  induction L generalizing m with
  | nil => rfl
  | cons x xs ih =>
    simp only [gundoL]
    rw [Expr.gundo_off fun h' => ha ⟨x, by simp, h'⟩]
    exact ih fun ⟨y, hy, h'⟩ => ha ⟨y, by simp [hy], h'⟩

theorem exactExec_off {x : Expr α} {m : ℕ → α} {a : ℕ} (ha : a ∉ x.tgt) : x.exactExec m a = m a := by
  cases x with
  | eq v e w => exact assign_off ha
  | opEq op v e w c => exact assign_off ha
  | _ => rfl

theorem exactExecL_off {L : List (Expr α)} {m : ℕ → α} {a : ℕ} (ha : a ∉ tgts L) : exactExecL L m a = m a := by
  induction L generalizing m with
  | nil => rfl
  | cons x xs ih =>
    rw [exactExecL, ih fun ⟨y, hy, h'⟩ => ha ⟨y, by simp [hy], h'⟩]
    exact exactExec_off fun h' => ha ⟨x, by simp, h'⟩

/-- what a statement assigns is undone, unless it is a placeholder -/
theorem Expr.gundo_exec {x : Expr α} {m h : ℕ → α} {a : ℕ} (hx : a ∉ x.place) (heq : h a = x.exactExec m a) : x.gundo m h a = m a := by
  by_cases ha : a ∈ x.tgt
  · cases x with
    | eq v e w => exact absurd ha hx
    | opEq op v e w c =>
      obtain ⟨k, hk, rfl⟩ := mem_rng_iff.1 ha
      simp only [Expr.gundo]
      exact assign_add hk
    | _ => exact ha.elim
  · rw [Expr.gundo_off ha, heq, exactExec_off ha]

theorem gundoL_exec {L : List (Expr α)} {m h : ℕ → α} {a : ℕ} (ha : a ∉ places L) (heq : h a = exactExecL L m a) :
    gundoL L m h a = m a := by
  induction L generalizing m with
  | nil => exact heq
  | cons x xs ih =>
    rw [places_cons] at ha
    exact Expr.gundo_exec (fun h' => ha (Or.inl h')) (ih (fun h' => ha (Or.inr h')) heq)

/-! ### Adjoints -/

/-- what is needed of a statement for its adjoints to depend on the relevant cells only -/
def Expr.Lite : Expr α → Prop
  | .eq v e w => e.WF ∧ e.shape = v.shape ∧ w.shape = v.shape
  | .opEq _ v e w _ => e.WF ∧ v.shape.Ok ∧ (e.shape.isScl = true ∨ e.shape = v.shape) ∧ w.shape = v.shape
  | e => e.WF

theorem StmtB.lite {vok aok : ℕ → Bool} {BV BA : Set ℕ} {x : Expr α} (hb : StmtB vok aok BV BA x) : x.Lite := by
  by_cases hs : x.isStmt = false
  · have := (hb.pure hs).1.wf
    cases x <;> first | exact this | simp [Expr.isStmt] at hs
  · cases x with
    | eq v e w => exact ⟨EqB.wf hb, EqB.shape hb, EqB.wshape hb⟩
    | opEq op v e w c =>
      have hb : OpB vok aok BV BA v e w c := hb
      exact ⟨hb.pure.wf, hb.vshape, hb.shape, hb.wshape⟩
    | _ => simp [Expr.isStmt] at hs

theorem WFStmt.lite {x : Expr α} (h : x.WFStmt) : x.Lite := by
  by_cases hs : x.isStmt = false
  · have := (WFStmt_pure hs h).1
    cases x <;> first | exact this | simp [Expr.isStmt] at hs
  · cases x with
    | eq v e w => exact ⟨h.1, h.2.2.1, h.2.2.2.1⟩
    | opEq op v e w c => exact ⟨h.1, h.2.1, h.2.2.1, h.2.2.2.1⟩
    | _ => simp [Expr.isStmt] at hs

/-- the adjoints a statement produces depend on the given adjoints of the variables it mentions and on the seed only -/
theorem Expr.Lite.gbk_congr {x : Expr α} (hx : x.Lite) {m seed seed' A A' : ℕ → α} (heq : ∀ a ∈ x.mentA, A a = A' a)
    (hseed : ∀ k < x.size, seed k = seed' k) {a : ℕ} (ha : A a = A' a) : x.gbk m seed A a = x.gbk m seed' A' a := by
  have pure : ∀ e : Expr α, e.WF → (∀ k < e.size, seed k = seed' k) → e.gback m seed a (A a) = e.gback m seed' a (A' a) := by
    intro e hwf hseed
    rw [ha, gback_congr m e _ _ hwf hseed]
  cases x with
  | eq v e w =>
    obtain ⟨h1, h2, h3⟩ := hx
    have hsz : e.size = v.size := by rw [Expr.size, h2, View.size]
    have hw : (Expr.eq v e w).size = v.size := by show w.shape.size = v.shape.size; rw [h3]
    rw [hw] at hseed
    simp only [Expr.gbk]
    rw [gback_congr m e _ (fun k => A' (addr v.adj + k) + seed' k) h1 fun k hk => by
      rw [hseed k (hsz ▸ hk), heq _ (Or.inr (add_mem_rng (hsz ▸ hk)))]]
    congr 1
    by_cases hav : a ∈ rng v.adj v.size
    · rw [if_pos hav, if_pos hav, ha]
      obtain ⟨k, hk, rfl⟩ := mem_rng_iff.1 hav
      rw [Nat.add_sub_cancel_left, hseed k hk]
    · rw [if_neg hav, if_neg hav, ha]
  | opEq op v e w c =>
    obtain ⟨h1, h2, h3, h4⟩ := hx
    have hw : (Expr.opEq op v e w c).size = v.size := by show w.shape.size = v.shape.size; rw [h4]
    rw [hw] at hseed
    simp only [Expr.gbk]
    rw [gback_congr m e _ (collapse e.shape v.shape v.size (fun k =>
          op.br (A' (addr v.adj + k) + seed' k) (m (addr v.val + k)) (e.exact m (if e.shape.isScl then 0 else k)))) h1
        (collapse_same (fun k hk => by rw [heq _ (Or.inr (add_mem_rng hk)), hseed k hk])
          (operand_size h1.shapeOk h2 (h3.imp id fun x => by rw [x]; exact ⟨rfl, rfl⟩)))]
    by_cases hav : a ∈ rng v.adj v.size
    · simp only [if_pos hav]
      rw [ha]
      obtain ⟨k, hk, rfl⟩ := mem_rng_iff.1 hav
      rw [Nat.add_sub_cancel_left, hseed k hk]
    · simp only [if_neg hav]
      rw [ha]
  | _ => exact pure _ hx hseed

theorem Expr.gbk_off {x : Expr α} {m seed A : ℕ → α} {a : ℕ} (ha : a ∉ x.mentA) : x.gbk m seed A a = A a := by
  cases x with
  | eq v e w =>
    simp only [Expr.gbk]
    rw [if_neg fun h => ha (Or.inr h), gback_support m e _ _ _ fun h => ha (Or.inl h)]
  | opEq op v e w c =>
    simp only [Expr.gbk]
    rw [if_neg fun h => ha (Or.inr h), if_neg fun h => ha (Or.inr h), gback_support m e _ _ _ fun h => ha (Or.inl h)]
  | _ => exact gback_support m _ _ _ _ ha

theorem StmtB.mentA_out {vok aok : ℕ → Bool} {BV BA : Set ℕ} {x : Expr α} (hb : StmtB vok aok BV BA x) {a : ℕ} (ha : a ∈ x.mentA) :
    a ∉ BA := by
  by_cases hs : x.isStmt = false
  · obtain ⟨hb, _, _⟩ := hb.pure hs
    have hment : x.mentA = x.readsA := by cases x <;> first | rfl | simp [Expr.isStmt] at hs
    exact disj_right hb.dA (hment ▸ ha)
  · cases x with
    | eq v e w => exact disj_right (EqB.dA hb) ha
    | opEq op v e w c =>
      have hb : OpB vok aok BV BA v e w c := hb
      exact ha.elim (fun h => disj_right hb.pure.dA h) fun h => disj_right hb.dA h
    | _ => simp [Expr.isStmt] at hs

theorem gbackL_congr {L : List (Expr α)} {D : Set ℕ} (hL : ∀ x ∈ L, x.Lite ∧ x.mentA ⊆ D) {m seed seed' A A' : ℕ → α}
    (hA : ∀ a ∈ D, A a = A' a) (hseed : ∀ x ∈ L.getLast?, ∀ k < x.size, seed k = seed' k) :
    ∀ a ∈ D, gbackL L m seed A a = gbackL L m seed' A' a := by
  induction L generalizing m with
  | nil => exact hA
  | cons x xs ih =>
    intro a ha
    obtain ⟨h1, h2⟩ := hL x (by simp)
    cases xs with
    | nil =>
      simp only [gbackL, List.isEmpty_nil, if_true]
      exact h1.gbk_congr (fun a ha => hA a (h2 ha)) (hseed x (by simp)) (hA a ha)
    | cons y ys =>
      have h3 := ih (m := x.exactExec m) (fun z hz => hL z (List.mem_cons_of_mem _ hz)) fun z hz => hseed z (by rw [List.getLast?_cons_cons]; exact hz)
      rw [gbackL, gbackL]
      exact h1.gbk_congr (fun a ha => h3 a (h2 ha)) (fun _ _ => rfl) (h3 a ha)

theorem gbackL_off {L : List (Expr α)} {m seed A : ℕ → α} {a : ℕ} (ha : ∀ x ∈ L, a ∉ x.mentA) : gbackL L m seed A a = A a := by
  induction L generalizing m with
  | nil => rfl
  | cons x xs ih =>
    rw [gbackL, Expr.gbk_off (ha x (by simp))]
    exact ih fun y hy => ha y (by simp [hy])

/-! ### Running a sequence -/

structure GSeqOk (BV K : Set ℕ) (L : List (Expr α)) (m : ℕ → α) (s s' : St α) : Prop where
  run : SeqRun L s s'
  adj : s'.adj = s.adj
  vok : s'.vok = s.vok
  aok : s'.aok = s.aok
  store : ∀ a ∈ K ∪ places L, s'.val a = exactExecL L m a
  other : ∀ a, a ∉ BV → a ∉ tgts L → s'.val a = s.val a
  frame : ∀ a, a ∈ BV → (∀ x ∈ L, a ∉ x.lv) → s'.val a = s.val a
  cached : GPCs BV L m s'.val
  value : ∀ x ∈ L.getLast?, ∀ k < x.size, s'.val (addr x.view.val + k) = exactResultL L m k

theorem gseq_ok {BV BA K : Set ℕ} (L : List (Expr α)) (m : ℕ → α) (s : St α) (hb : SeqB s.vok s.aok BV BA L)
    (hKB : Disjoint K BV) (hK : NeedOk K L) (hm : ∀ a ∈ K, s.val a = m a) : ∃ s', GSeqOk BV K L m s s' := by
  induction L generalizing m s K with
  | nil =>
    exact ⟨s, .nil s, rfl, rfl, rfl, fun a ha => hm a (ha.resolve_right fun ⟨x, hx, _⟩ => by simp at hx), fun _ _ _ => rfl, fun _ _ _ => rfl, trivial,
      fun x hx => by simp at hx⟩
  | cons x xs ih =>
    have hx := hb.stmt x (by simp)
    obtain ⟨s1, h1⟩ := gstep_ok hx hKB hK.1 hm
    have hd := List.pairwise_cons.1 hb.disj
    obtain ⟨s', h2⟩ := ih (x.exactExec m) s1 ⟨fun y hy => by rw [h1.vok, h1.aok]; exact hb.stmt y (by simp [hy]), hd.2⟩
      (Set.disjoint_union_left.2 ⟨hKB, Set.disjoint_left.2 fun a ha => hx.ment_out (by rw [Expr.ment_eq]; exact Or.inr ha)⟩) hK.2 h1.store
    refine ⟨s', .cons h1.run h1.vok h1.acc h2.run, h2.adj.trans h1.adj, h2.vok.trans h1.vok, h2.aok.trans h1.aok, ?_, ?_, ?_, ⟨?_, h2.cached⟩, ?_⟩
    · intro a ha
      refine h2.store a ?_
      rw [places_cons, ← Set.union_assoc] at ha
      exact ha
    · intro a ha hn
      rw [h2.other a ha fun ⟨y, hy, h⟩ => hn ⟨y, by simp [hy], h⟩, h1.other a ha fun h => hn ⟨x, by simp, h⟩]
    · intro a ha hn
      rw [h2.frame a ha fun y hy => hn y (by simp [hy]), h1.frame a ha (hn x (by simp))]
    · exact h1.cached.congr hx fun a ha => h2.frame a (hx.lv_sub ha) fun y hy => disj_left (hd.1 y hy) ha
    · intro y hy k hk
      cases xs with
      | nil =>
        simp at hy
        subst hy
        cases h2.run
        exact h1.value k hk
      | cons z zs =>
        rw [List.getLast?_cons_cons] at hy
        exact h2.value y hy k hk

/-! ### Running it backwards -/

/-- the variable or constant view in which the value of a statement is stored -/
def Expr.loc : Expr α → Option (Option ℕ)
  | .var u => some u.val
  | .cview _ q => some q
  | .eq v _ _ => some v.val
  | .opEq _ v _ _ _ => some v.val
  | _ => none

theorem StmtB.loc_none {vok aok : ℕ → Bool} {BV BA : Set ℕ} {y : Expr α} (h : StmtB vok aok BV BA y) (hy : y.loc = none) :
    y.isStmt = false ∧ rng y.view.val y.size ⊆ y.lv := by
  cases y with
  | var => simp [Expr.loc] at hy
  | cview => simp [Expr.loc] at hy
  | eq => simp [Expr.loc] at hy
  | opEq => simp [Expr.loc] at hy
  | const => exact absurd h.2.2 (by simp [Expr.getRef])
  | ifElse => exact absurd h.2.1 (by simp [Expr.isIf])
  | glue => exact h.1.wf.elim
  | forEach => exact h.1.wf.elim
  | _ => exact ⟨rfl, fun c hc => by rw [h.1.wf.lv]; exact Or.inr hc⟩

theorem StmtB.loc_some {vok aok : ℕ → Bool} {BV BA : Set ℕ} {y : Expr α} {q : Option ℕ} (h : StmtB vok aok BV BA y) (hy : y.loc = some q) :
    y.view.val = q ∧ rng q y.size ⊆ y.ment := by
  cases y with
  | var u => simp [Expr.loc] at hy; subst hy; exact ⟨rfl, subset_rfl⟩
  | cview sh p => simp [Expr.loc] at hy; subst hy; exact ⟨rfl, subset_rfl⟩
  | eq v e w =>
    have h : EqB vok aok BV BA v e w := h
    simp [Expr.loc] at hy; subst hy
    refine ⟨h.wval, fun c hc => Or.inr ?_⟩
    have h1 : (Expr.eq v e w).size = v.size := by
      show w.shape.size = v.shape.size
      rw [h.wshape]
    rwa [h1] at hc
  | opEq op v e w c =>
    have h : OpB vok aok BV BA v e w c := h
    simp [Expr.loc] at hy; subst hy
    refine ⟨h.wval, fun a hc => Or.inr ?_⟩
    have h1 : (Expr.opEq op v e w c).size = v.size := by
      show w.shape.size = v.shape.size
      rw [h.wshape]
    rwa [h1] at hc
  | _ => simp [Expr.loc] at hy

structure GBackLOk (BV BA : Set ℕ) (L : List (Expr α)) (m seed : ℕ → α) (s s' : St α) : Prop where
  run : bevalL L seed s = some s'
  vok : s'.vok = s.vok
  aok : s'.aok = s.aok
  frame : ∀ a, a ∈ BV → (∀ x ∈ L, a ∉ x.lv) → s'.val a = s.val a
  val : ∀ a, a ∉ BV → s'.val a = gundoL L m s.val a
  adj : ∀ a, a ∉ BA → s'.adj a = gbackL L m seed s.adj a
  last : ∀ x ∈ L.getLast?, x.loc = none → ∀ k < x.size, s'.val (addr x.view.val + k) = x.post (exactExecL L m) k

theorem gbackL_ok {BV BA K : Set ℕ} (L : List (Expr α)) (m seed : ℕ → α) (s : St α) (hb : SeqB s.vok s.aok BV BA L)
    (hc : GPCs BV L m s.val) (hK : NeedOk K L) (hm : ∀ a ∈ K ∪ places L, s.val a = exactExecL L m a) (ho : L.Pairwise After) :
    ∃ s', GBackLOk BV BA L m seed s s' := by
  induction L generalizing m s K with
  | nil => exact ⟨s, rfl, rfl, rfl, fun _ _ _ => rfl, fun _ _ => rfl, fun _ _ => rfl, fun x hx => by simp at hx⟩
  | cons x xs ih =>
    have hx := hb.stmt x (by simp)
    have hd := List.pairwise_cons.1 hb.disj
    have hoo := List.pairwise_cons.1 ho
    rw [places_cons, ← Set.union_assoc] at hm
    obtain ⟨s1, h1⟩ := ih (x.exactExec m) s ⟨fun y hy => hb.stmt y (by simp [hy]), hd.2⟩ hc.2 hK.2 hm hoo.2
    have hx1 : StmtB s1.vok s1.aok BV BA x := by rw [h1.vok, h1.aok]; exact hx
    obtain ⟨s', h2⟩ := gback_ok (seed := if xs.isEmpty then seed else fun _ => 0) hx1
      (hc.1.congr hx fun a ha => h1.frame a (hx.lv_sub ha) fun y hy => disj_left (hd.1 y hy) ha) (fun a ha => by
        rw [h1.val a (hx.ment_out ha)]
        refine gundoL_exec (fun ⟨y, hy, h⟩ => disj_left (hoo.1 y hy) ha h) (hm a (Or.inl ?_))
        rw [Expr.ment_eq] at ha
        exact ha.imp (fun h => hK.1 h) id)
    refine ⟨s', ?_, h2.vok.trans h1.vok, h2.aok.trans h1.aok, fun a ha hn => ?_, fun a ha => ?_, fun a ha => ?_, fun y hy hl k hk => ?_⟩
    · simp only [bevalL, h1.run, Option.bind_some]
      exact h2.run
    · rw [h2.frame a ha (hn x (by simp)), h1.frame a ha fun y hy => hn y (by simp [hy])]
    · rw [h2.val a ha]
      exact Expr.gundo_congr (h1.val a ha)
    · rw [h2.adj a ha]
      exact hx.lite.gbk_congr (fun b hb' => h1.adj b (hx.mentA_out hb')) (fun _ _ => rfl) (h1.adj a ha)
    · cases xs with
      | nil =>
        simp at hy
        subst hy
        obtain ⟨hs, _⟩ := hx.loc_none hl
        rw [h2.post hs k hk]
        simp only [exactExecL]
        rw [(hx.pure hs).1.wf.exactExec]
      | cons z zs =>
        rw [List.getLast?_cons_cons] at hy
        have hyb := hb.stmt y (List.mem_cons_of_mem _ (List.mem_of_getLast? hy))
        have hcell := (hyb.loc_none hl).2 (add_mem_rng hk)
        rw [h2.frame _ (hyb.lv_sub hcell) fun h => disj_left (hd.1 y (List.mem_of_getLast? hy)) h hcell]
        exact h1.last y hy hl k hk

/-! ### Binding does not change the meaning -/

theorem strip_exactResult {x : Expr α} (h : x.isLeaf = true) (m : ℕ → α) : x.strip.exactResult m = x.exactResult m := by
  cases x with
  | glue => simp [Expr.isLeaf] at h
  | forEach => simp [Expr.isLeaf] at h
  | eq v e w => funext k; simp only [Expr.strip, Expr.exactResult, strip_exact]
  | opEq op v e w c => funext k; simp only [Expr.strip, Expr.exactResult, strip_exact, Expr.strip_shape]
  | _ => funext k; exact congrFun (strip_exact m _) k

theorem strip_exactExec {x : Expr α} (h : x.isLeaf = true) (m : ℕ → α) : x.strip.exactExec m = x.exactExec m := by
  have ht : x.strip.target = x.target := by cases x <;> rfl
  rw [Expr.exactExec, Expr.exactExec, ht, strip_exactResult h]

theorem strip_gbk {x : Expr α} (h : x.isLeaf = true) (m seed A : ℕ → α) : x.strip.gbk m seed A = x.gbk m seed A := by
  cases x with
  | glue => simp [Expr.isLeaf] at h
  | forEach => simp [Expr.isLeaf] at h
  | eq v e w => funext a; simp only [Expr.strip, Expr.gbk, strip_gback]
  | opEq op v e w c => funext a; simp only [Expr.strip, Expr.gbk, strip_gback, strip_exact, strip_post, Expr.strip_shape]
  | _ => funext a; exact congrFun (congrFun (congrFun (strip_gback m _) seed) a) (A a)

theorem strip_gundo {x : Expr α} (h : x.isLeaf = true) (m A : ℕ → α) : x.strip.gundo m A = x.gundo m A := by
  have hif : ∀ e : Expr α, e.strip.isIf = e.isIf := fun e => by cases e <;> rfl
  cases x with
  | eq v e w => simp only [Expr.strip, Expr.gundo, strip_post, hif]
  | glue => simp [Expr.isLeaf] at h
  | forEach => simp [Expr.isLeaf] at h
  | _ => rfl

theorem strip_need {x : Expr α} : x.strip.need = x.need := by
  cases x with
  | eq v e w => simp only [Expr.strip, Expr.need, strip_reads]
  | opEq op v e w c => simp only [Expr.strip, Expr.need, strip_reads]
  | _ => exact strip_reads _

theorem strip_tgt {x : Expr α} : x.strip.tgt = x.tgt := by cases x <;> rfl

theorem strip_loc {x : Expr α} : x.strip.loc = x.loc := by cases x <;> rfl

section
variable {x' x : Expr α} (h : x.isLeaf = true ∧ x'.strip = x.strip)
include h

theorem exactExec_of_strip (m : ℕ → α) : x'.exactExec m = x.exactExec m := by
  rw [← strip_exactExec (isLeaf_of_strip h), h.2, strip_exactExec h.1]
theorem exactResult_of_strip (m : ℕ → α) : x'.exactResult m = x.exactResult m := by
  rw [← strip_exactResult (isLeaf_of_strip h), h.2, strip_exactResult h.1]
theorem gbk_of_strip (m seed A : ℕ → α) : x'.gbk m seed A = x.gbk m seed A := by
  rw [← strip_gbk (isLeaf_of_strip h), h.2, strip_gbk h.1]
theorem gundo_of_strip (m A : ℕ → α) : x'.gundo m A = x.gundo m A := by
  rw [← strip_gundo (isLeaf_of_strip h), h.2, strip_gundo h.1]
theorem need_of_strip : x'.need = x.need := by rw [← strip_need, h.2, strip_need]
theorem tgt_of_strip : x'.tgt = x.tgt := by rw [← strip_tgt, h.2, strip_tgt]
theorem loc_of_strip : x'.loc = x.loc := by rw [← strip_loc, h.2, strip_loc]
end

theorem SameL.exactExec {L' L : List (Expr α)} (h : SameL L' L) (m : ℕ → α) : exactExecL L' m = exactExecL L m := by
  induction h generalizing m with
  | nil => rfl
  | cons h1 _ ih => simp only [exactExecL, exactExec_of_strip h1, ih]

theorem SameL.exactResult {L' L : List (Expr α)} (h : SameL L' L) (m : ℕ → α) : exactResultL L' m = exactResultL L m := by
  induction h generalizing m with
  | nil => rfl
  | cons h1 h2 ih =>
    cases h2 with
    | nil => exact exactResult_of_strip h1 m
    | cons h3 h4 =>
      have := ih
      simp only [exactResultL] at this ⊢
      rw [exactExec_of_strip h1]
      exact this _

theorem SameL.gback {L' L : List (Expr α)} (h : SameL L' L) (m seed A : ℕ → α) : gbackL L' m seed A = gbackL L m seed A := by
  induction h generalizing m with
  | nil => rfl
  | cons h1 h2 ih => simp only [gbackL, SameL.isEmpty h2, ih, gbk_of_strip h1, exactExec_of_strip h1]

theorem SameL.gundo {L' L : List (Expr α)} (h : SameL L' L) (m A : ℕ → α) : gundoL L' m A = gundoL L m A := by
  induction h generalizing m with
  | nil => rfl
  | cons h1 h2 ih => simp only [gundoL, ih, gundo_of_strip h1, exactExec_of_strip h1]

theorem SameL.needOk {L' L : List (Expr α)} (h : SameL L' L) {K : Set ℕ} (hK : NeedOk K L) : NeedOk K L' := by
  induction h generalizing K with
  | nil => trivial
  | cons h1 h2 ih => exact ⟨by rw [need_of_strip h1]; exact hK.1, by rw [place_of_strip h1]; exact ih hK.2⟩

theorem SameL.places {L' L : List (Expr α)} (h : SameL L' L) : FastAD.places L' = FastAD.places L := by
  induction h with
  | nil => rfl
  | cons h1 h2 ih => rw [places_cons, places_cons, ih, place_of_strip h1]

theorem SameL.tgts {L' L : List (Expr α)} (h : SameL L' L) : FastAD.tgts L' = FastAD.tgts L := by
  have cons : ∀ (x : Expr α) xs, FastAD.tgts (x :: xs) = x.tgt ∪ FastAD.tgts xs := by
    intro x xs; ext a; simp [FastAD.tgts]
  induction h with
  | nil => rfl
  | cons h1 h2 ih => rw [cons, cons, ih, tgt_of_strip h1]

/-! ### Bound programs -/

/-- Outcome of `evaluate` of a bound program whose cells `K` hold the values `m`. -/
structure GProgEval (p b : Expr α) (BV K : Set ℕ) (m : ℕ → α) (s s' : St α) (r : Ref α) : Prop where
  run : evaluate b s = some (s', r)
  adj : s'.adj = s.adj
  vok : s'.vok = s.vok
  aok : s'.aok = s.aok
  store : ∀ a ∈ K ∪ places p.flat, s'.val a = exactExecL p.flat m a
  other : ∀ a, a ∉ BV → a ∉ tgts p.flat → s'.val a = s.val a
  cached : GPCs BV b.flat m s'.val
  scalar : p.shape.isScl = true → r = .lit (trunc p.size (exactResultL p.flat m))
  value : r.read s' p.size = some (trunc p.size (exactResultL p.flat m))
  array : p.shape.isScl = false → r = .ptr b.view.val
  acc : accessible s'.vok b.view.val p.size

theorem EvalB.flat_ne {p b : Expr α} {BV BA : Set ℕ} {vok aok : ℕ → Bool} (h : EvalB p b BV BA vok aok) : b.flat ≠ [] := by
  intro h0
  have := h.same
  rw [h0] at this
  cases hp : p.flat with
  | nil => exact h.nonempty hp
  | cons => rw [hp] at this; cases this

theorem EvalB.gevaluate {p b : Expr α} {BV BA K : Set ℕ} {s : St α} (h : EvalB p b BV BA s.vok s.aok) {m : ℕ → α}
    (hKB : Disjoint K BV) (hK : NeedOk K p.flat) (hm : ∀ a ∈ K, s.val a = m a) (hok : p.shape.Ok) :
    ∃ s' r, GProgEval p b BV K m s s' r := by
  obtain ⟨s', h1⟩ := gseq_ok b.flat m s h.seq hKB (h.same.needOk hK) hm
  have hne := h.flat_ne
  obtain ⟨r, hr, hr2⟩ := feval_tree b h.tree s s' h1.run
  obtain ⟨rfl, hacc⟩ := hr2 hne
  have hval : ∀ k < b.size, s'.val (addr b.view.val + k) = exactResultL p.flat m k := by
    intro k hk
    have hlast := List.getLast?_eq_some_getLast hne
    obtain ⟨h2, h3⟩ := view_last b h.tree _ hlast
    rw [h2, h1.value _ hlast k (by rw [Expr.size, ← h3]; exact hk), h.same.exactResult]
  have hsz : b.size = p.size := by rw [Expr.size, h.shape, Expr.size]
  have hread : (Ref.ptr b.view.val : Ref α).read s' p.size = some (trunc p.size (exactResultL p.flat m)) := by
    rw [← hsz]
    exact readCells_eq' hacc hval
  have hst : ∀ a ∈ K ∪ places p.flat, s'.val a = exactExecL p.flat m a := by
    intro a ha
    rw [h1.store a (by rw [h.same.places]; exact ha), h.same.exactExec]
  have hot : ∀ a, a ∉ BV → a ∉ tgts p.flat → s'.val a = s.val a := fun a ha hn => h1.other a ha (by rw [h.same.tgts]; exact hn)
  by_cases hs : p.shape.isScl = true
  · have h1s : p.size = 1 := hok.size_scl hs
    refine ⟨s', .lit (trunc 1 (exactResultL p.flat m)), ?_, h1.adj, h1.vok, h1.aok, hst, hot, h1.cached, fun _ => by rw [h1s], ?_,
      fun h => absurd (hs.symm.trans h) (by simp), hsz ▸ hacc⟩
    · rw [FastAD.evaluate, hr]
      simp only [Option.bind_eq_bind, Option.bind_some, h.shape, hs, if_true]
      rw [h1s] at hread
      rw [hread]
      rfl
    · rw [h1s]
      simp only [Ref.read, trunc_trunc]
  · refine ⟨s', .ptr b.view.val, ?_, h1.adj, h1.vok, h1.aok, hst, hot, h1.cached, fun h => absurd h hs, hread,
      fun _ => rfl, hsz ▸ hacc⟩
    rw [FastAD.evaluate, hr]
    simp [h.shape, hs]

/-- what the memory in which the value of the program is stored holds after the backward evaluation -/
def lastVal (L : List (Expr α)) (m : ℕ → α) (k : ℕ) : α :=
  match L.getLast? with
  | none => 0
  | some x =>
    match x.loc with
    | some q => gundoL L m (exactExecL L m) (addr q + k)
    | none => x.post (exactExecL L m) k

/-- Outcome of `autodiff` of a bound program whose cells `K` hold the values `m`. -/
structure GProgAuto (p b : Expr α) (BV BA K : Set ℕ) (m seed : ℕ → α) (s s' : St α) (r : Ref α) : Prop where
  run : autodiff b seed s = some (s', r)
  vok : s'.vok = s.vok
  aok : s'.aok = s.aok
  val : ∀ a ∈ K ∪ places p.flat, s'.val a = gundoL p.flat m (exactExecL p.flat m) a
  other : ∀ a, a ∉ BV → a ∉ tgts p.flat → s'.val a = s.val a
  adj : ∀ a, a ∉ BA → s'.adj a = gbackL p.flat m seed s.adj a
  value : r.read s' p.size = some (trunc p.size (if p.shape.isScl then exactResultL p.flat m else lastVal p.flat m))

theorem places_out {vok aok : ℕ → Bool} {BV BA : Set ℕ} {L : List (Expr α)} (hb : SeqB vok aok BV BA L) {a : ℕ} (ha : a ∈ places L) : a ∉ BV := by
  obtain ⟨x, hx, h⟩ := ha
  exact (hb.stmt x hx).ment_out (by rw [Expr.ment_eq]; exact Or.inr h)

theorem ProgB.gautodiff {p b : Expr α} {BV BA K : Set ℕ} {s : St α} (h : ProgB p b BV BA s.vok s.aok) {m : ℕ → α}
    (hKB : Disjoint K BV) (hK : NeedOk K p.flat) (hm : ∀ a ∈ K, s.val a = m a) (hok : p.shape.Ok) (seed : ℕ → α) :
    ∃ s' r, GProgAuto p b BV BA K m seed s s' r := by
  obtain ⟨s1, r, h1⟩ := h.gevaluate hKB hK hm hok
  have hstore : ∀ a ∈ K ∪ places b.flat, s1.val a = exactExecL b.flat m a := fun a ha => by
    rw [h1.store a (by rw [← h.same.places]; exact ha), h.same.exactExec]
  obtain ⟨s2, h2⟩ := gbackL_ok b.flat m seed s1 (by rw [h1.vok, h1.aok]; exact h.seq) h1.cached (h.same.needOk hK) hstore (h.same.after h.order)
  have hout : ∀ a ∈ K ∪ places b.flat, a ∉ BV := fun a ha => ha.elim (fun h' => disj_left hKB h') fun h' => places_out h.seq h'
  have hval : ∀ a ∈ K ∪ places b.flat, s2.val a = gundoL p.flat m (exactExecL p.flat m) a := by
    intro a ha
    rw [h2.val a (hout a ha), h.same.gundo]
    refine gundoL_congr ?_
    rw [hstore a ha, h.same.exactExec]
  refine ⟨s2, r, ?_, h2.vok.trans h1.vok, h2.aok.trans h1.aok, fun a ha => hval a (by rw [h.same.places]; exact ha), fun a ha hn => ?_, fun a ha => ?_, ?_⟩
  · rw [FastAD.autodiff, h1.run]
    simp [FastAD.evaluateAdj, beval_tree b h.tree, h2.run]
  · rw [h2.val a ha, gundoL_off (by rw [h.same.tgts]; exact hn), h1.other a ha hn]
  · rw [h2.adj a ha, h.same.gback, h1.adj]
  · by_cases hs : p.shape.isScl = true
    · rw [if_pos hs, h1.scalar hs]
      simp only [Ref.read, trunc_trunc]
    · rw [if_neg hs, h1.array (by simpa using hs)]
      refine readCells_eq' (by rw [h2.vok]; exact h1.acc) fun k hk => ?_
      have hlast := List.getLast?_eq_some_getLast h.flat_ne
      obtain ⟨x, hx, hx1⟩ := h.same.getLast _ hlast
      obtain ⟨hv1, hv2⟩ := view_last b h.tree _ hlast
      have hsz : (b.flat.getLast h.flat_ne).size = p.size := by rw [Expr.size, ← hv2, h.shape, Expr.size]
      have hyb := h.seq.stmt _ (List.getLast_mem h.flat_ne)
      have hx' : p.flat.getLast? = some x := hx
      have hloc := loc_of_strip hx1
      rw [hv1]
      unfold lastVal
      rw [hx']
      cases hl : x.loc with
      | none =>
        simp only [hl]
        rw [h2.last _ hlast (hloc.trans hl) k (hsz ▸ hk), h.same.exactExec, Expr.post_of_strip hx1.2]
      | some q =>
        simp only [hl]
        obtain ⟨hq, hsub⟩ := hyb.loc_some (hloc.trans hl)
        rw [hq]
        exact hval _ ((h.same.needOk hK).ment _ (List.getLast_mem h.flat_ne) (hsub (add_mem_rng (hsz ▸ hk))))

/-! ### Programs -/

/-- the cells a program reads before it writes them -/
def Expr.known (p : Expr α) : Set ℕ := ↑((p.valCells ∪ p.constCells) \ p.placeCells)

theorem Expr.Program.needOk {p : Expr α} (hp : p.Program) : NeedOk p.known p.flat := by
  obtain ⟨f1, -, -⟩ := flat_spec p hp.tree
  refine need_ok (fun x hx a ha => ?_) (hp.order.imp after_of_usedAfter) fun x hx => ?_
  · by_cases hpl : a ∈ p.placeCells
    · exact Or.inr (mem_placeCells.1 hpl)
    · refine Or.inl (Finset.mem_coe.2 (Finset.mem_sdiff.2 ⟨Finset.mem_union.2 ?_, hpl⟩))
      rcases ment_cells (x := x) a (by rw [Expr.ment_eq]; exact Or.inl ha) with h | h
      · obtain ⟨u, hu, h⟩ := mem_valCells.1 h
        exact Or.inl (mem_valCells.2 ⟨u, (f1 x hx).2.1 u hu, h⟩)
      · obtain ⟨u, hu, h⟩ := mem_constCells.1 h
        exact Or.inr (mem_constCells.2 ⟨u, (f1 x hx).2.2 u hu, h⟩)
  · have hw := (f1 x hx).1
    cases x with
    | eq v e w =>
      refine Set.disjoint_left.2 fun a ha hpl => ?_
      obtain ⟨k, hk, rfl⟩ := mem_rng_iff.1 hpl
      obtain ⟨h1, h2, -⟩ := hw.2.2.2.2.2 k hk
      exact (reads_cells e _ ha).elim h1 h2
    | _ => exact Set.disjoint_empty _

theorem mentA_cells {x : Expr α} (a : ℕ) (ha : a ∈ x.mentA) : a ∈ x.adjCells := by
  have key : ∀ (v : View) (e y : Expr α), y.vars = v :: e.vars → a ∈ e.readsA ∪ rng v.adj v.size → a ∈ y.adjCells := by
    intro v e y h1 ha
    rcases ha with ha | ha
    · obtain ⟨u, hu, h⟩ := mem_adjCells.1 (readsA_cells e a ha)
      exact mem_adjCells.2 ⟨u, by rw [h1]; simp [hu], h⟩
    · exact mem_adjCells.2 ⟨v, by rw [h1]; simp, ha⟩
  cases x with
  | eq v e w => exact key v e _ rfl ha
  | opEq op v e w c => exact key v e _ rfl ha
  | _ => exact readsA_cells _ a ha

theorem Expr.Program.lite {p : Expr α} (hp : p.Program) : ∀ x ∈ p.flat, x.Lite ∧ x.mentA ⊆ (p.adjCells : Set ℕ) := by
  obtain ⟨f1, -, -⟩ := flat_spec p hp.tree
  refine fun x hx => ⟨WFStmt.lite (f1 x hx).1, fun a ha => ?_⟩
  obtain ⟨u, hu, h⟩ := mem_adjCells.1 (mentA_cells a ha)
  exact mem_adjCells.2 ⟨u, (f1 x hx).2.1 u hu, h⟩

theorem constCells_aliveG {p : Expr α} {vok aok : ℕ → Bool} (h : p.Alive vok aok) (a : ℕ) (ha : a ∈ p.constCells) : vok a = true := by
  obtain ⟨w, hw, h1⟩ := mem_constCells.1 ha
  obtain ⟨k, hk, rfl⟩ := mem_rng_iff.1 h1
  exact accessible_mem (h.2 w hw) hk

theorem known_block {p : Expr α} {s : St α} {qv qa : ℕ} (hal : p.Alive s.vok s.aok) (hf : Fresh s p.bindSize qv qa) :
    Disjoint p.known (blockV qv p.bindSize) := by
  refine Set.disjoint_left.2 fun a ha => notin_blockV hf ?_
  rcases Finset.mem_union.1 (Finset.mem_sdiff.1 (Finset.mem_coe.1 ha)).1 with h | h
  · exact valCells_alive hal a h
  · exact constCells_aliveG hal a h

/-- targets of compound assignments are known or placeholders -/
theorem tgts_known {p : Expr α} (hp : p.Program) {a : ℕ} (ha : a ∈ tgts p.flat) : a ∈ p.known ∪ places p.flat := by
  obtain ⟨x, hx, h⟩ := ha
  refine hp.needOk.ment x hx ?_
  cases x with
  | eq v e w => exact Or.inr h
  | opEq op v e w c => exact Or.inr h
  | _ => exact h.elim

end FastAD
