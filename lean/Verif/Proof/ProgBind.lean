import Verif.Proof.Tree
import Verif.Proof.Session

/-!
# Binding programs, over an arbitrary scalar type
-/

namespace FastAD

variable {α : Type} [Zero α] [One α] [Add α] [Sub α] [Neg α] [Mul α] [Div α] [NatCast α] [IntCast α]
variable [Fn α] [HasInf α] [LinAlg α]
set_option linter.unusedSectionVars false

def bindL : List (Expr α) → Pack → List (Expr α)
  | [], _ => []
  | x :: xs, b => (x.bind b).1 :: bindL xs (b.adv x.bindSize)

def sizeL : List (Expr α) → SizePack
  | [] => ⟨0, 0⟩
  | x :: xs => x.bindSize + sizeL xs

theorem SizePack.zero_add' (a : SizePack) : ⟨0, 0⟩ + a = a := SizePack.ext' (Nat.zero_add _) (Nat.zero_add _)

theorem SizePack.add_zero' (a : SizePack) : a + ⟨0, 0⟩ = a := SizePack.ext' (Nat.add_zero _) (Nat.add_zero _)

theorem sizeL_append (l r : List (Expr α)) : sizeL (l ++ r) = sizeL l + sizeL r := by
  induction l with
  | nil => exact (SizePack.zero_add' _).symm
  | cons x xs ih => simp only [List.cons_append, sizeL, ih, SizePack.add_assoc']

theorem bindL_append (l r : List (Expr α)) (b : Pack) : bindL (l ++ r) b = bindL l b ++ bindL r (b.adv (sizeL l)) := by
  induction l generalizing b with
  | nil => simp [bindL, sizeL, Pack.adv_zero]
  | cons x xs ih => simp only [List.cons_append, bindL, ih, sizeL, Pack.adv_adv]

theorem bindL_nil {l : List (Expr α)} {b : Pack} : bindL l b = [] ↔ l = [] := by
  cases l <;> simp [bindL]

theorem flat_bind (e : Expr α) : ∀ b : Pack, (e.bind b).1.flat = bindL e.flat b ∧ e.bindSize = sizeL e.flat := by
  induction e using Expr.induct with
  | glue l r w ihl ihr =>
    intro b
    simp only [Expr.bind, Expr.flat, bind_adv, Expr.bindSize]
    rw [bindL_append, sizeL_append, (ihl b).1, (ihr _).1, ← (ihl b).2, ← (ihr b).2]
    exact ⟨rfl, rfl⟩
  | forEach es w ih =>
    intro b
    simp only [Expr.bind, Expr.flat, Expr.bindSize]
    induction es using Exprs.rec (motive_1 := fun _ => True) generalizing b with
    | nil => exact ⟨rfl, rfl⟩
    | cons e es _ ihs =>
      have h1 := ih e (by simp [Exprs.toList])
      have h2 := ihs (fun x hx => ih x (by simp [Exprs.toList, hx]))
      simp only [Exprs.bind, Exprs.flats, bind_adv, Exprs.bindSize]
      rw [bindL_append, sizeL_append, (h1 b).1, (h2 _).1, ← (h1 b).2, ← (h2 b).2]
      exact ⟨rfl, rfl⟩
    | _ => trivial
  | _ =>
    intro b
    exact ⟨rfl, (SizePack.add_zero' _).symm⟩

theorem WFTree_leaf {e : Expr α} (h : e.WFTree) (hl : e.isLeaf = true) : e.WFStmt := by
  cases e <;> first | exact h | simp [Expr.isLeaf] at hl

theorem WFStmt_isLeaf {e : Expr α} (h : e.WFStmt) : e.isLeaf = true := by
  cases e <;> first | rfl | exact h.elim

theorem getRef_bind {e : Expr α} (h : e.WFTree) (b : Pack) : (e.bind b).1.getRef = .ptr (e.bind b).1.view.val := by
  cases e with
  | const => exact h.2.2.elim
  | _ => rfl

theorem last_bind (es : Exprs α) (b : Pack) : ∀ e' ∈ (es.bind b).1.last, ∃ e ∈ es.last, ∃ b', e' = (e.bind b').1 := by
  induction es using Exprs.rec (motive_1 := fun _ => True) generalizing b with
  | nil => intro e' h; simp [Exprs.bind, Exprs.last] at h
  | cons e es _ ih =>
    cases es with
    | nil =>
      intro e' h
      simp [Exprs.bind, Exprs.last] at h
      exact ⟨e, by simp [Exprs.last], b, h.symm⟩
    | cons y ys =>
      intro e' h
      exact ih (e.bind b).2 e' h
  | _ => trivial

theorem TreeB_bind (e : Expr α) : ∀ b : Pack, e.WFTree → (e.bind b).1.TreeB := by
  induction e using Expr.induct with
  | glue l r w ihl ihr =>
    intro b h
    refine ⟨ihl _ h.1, ihr _ h.2.1, ?_, rfl, ?_⟩
    · rw [(flat_bind r _).1]
      exact fun h' => h.2.2.1 (bindL_nil.1 h')
    · exact h.2.2.2.trans (Expr.shape_of_strip (bind_strip r _)).symm
  | forEach es w ih =>
    intro b h
    refine ⟨?_, fun e' he' => ?_⟩
    · have ht := h.1
      clear h
      induction es using Exprs.rec (motive_1 := fun _ => True) generalizing b with
      | nil => trivial
      | cons e es _ ihs =>
        exact ⟨ih e (by simp [Exprs.toList]) b ht.1, ihs (fun x hx => ih x (by simp [Exprs.toList, hx])) _ ht.2⟩
      | _ => trivial
    · obtain ⟨e, he, b', rfl⟩ := last_bind es b e' he'
      obtain ⟨h1, h2⟩ := h.2 e he
      have hn : es.length ≠ 0 := (Exprs.last_spec he).2.2.2.2
      have hv := (Exprs.last_spec he').2.2.1
      have hwt : e.WFTree := by
        have hm := (Exprs.last_spec he).2.2.2.1
        have ht := h.1
        clear * - hm ht
        induction es using Exprs.rec (motive_1 := fun _ => True) with
        | nil => simp [Exprs.toList] at hm
        | cons x es _ ihs =>
          simp only [Exprs.toList, List.mem_cons] at hm
          rcases hm with rfl | hm
          · exact ht.1
          · exact ihs hm ht.2
        | _ => trivial
      simp only [if_neg hn]
      refine ⟨?_, by rw [hv], ?_, getRef_bind hwt b'⟩
      · rw [(flat_bind e b').1]
        exact fun h' => h1 (bindL_nil.1 h')
      · exact h2.trans (Expr.shape_of_strip (bind_strip e b')).symm
  | _ => intro b _; trivial

/-- statements of a well-formed tree are well-formed; their variables are those of the tree -/
theorem flat_spec (e : Expr α) (h : e.WFTree) :
    (∀ x ∈ e.flat, x.WFStmt ∧ (∀ v ∈ x.vars, v ∈ e.vars) ∧ ∀ c ∈ x.cviews, c ∈ e.cviews) ∧
    (∀ v ∈ e.vars, ∃ x ∈ e.flat, v ∈ x.vars) ∧ ∀ c ∈ e.cviews, ∃ x ∈ e.flat, c ∈ x.cviews := by
  induction e using Expr.induct with
  | glue l r w ihl ihr =>
    obtain ⟨l1, l2, l3⟩ := ihl h.1
    obtain ⟨r1, r2, r3⟩ := ihr h.2.1
    simp only [Expr.flat, Expr.vars, Expr.cviews, List.mem_append]
    refine ⟨?_, ?_, ?_⟩
    · rintro x (hx | hx)
      · exact ⟨(l1 x hx).1, fun v hv => Or.inl ((l1 x hx).2.1 v hv), fun v hv => Or.inl ((l1 x hx).2.2 v hv)⟩
      · exact ⟨(r1 x hx).1, fun v hv => Or.inr ((r1 x hx).2.1 v hv), fun v hv => Or.inr ((r1 x hx).2.2 v hv)⟩
    · rintro v (hv | hv)
      · obtain ⟨x, hx, h⟩ := l2 v hv; exact ⟨x, Or.inl hx, h⟩
      · obtain ⟨x, hx, h⟩ := r2 v hv; exact ⟨x, Or.inr hx, h⟩
    · rintro v (hv | hv)
      · obtain ⟨x, hx, h⟩ := l3 v hv; exact ⟨x, Or.inl hx, h⟩
      · obtain ⟨x, hx, h⟩ := r3 v hv; exact ⟨x, Or.inr hx, h⟩
  | forEach es w ih =>
    have ht := h.1
    clear h
    simp only [Expr.flat, Expr.vars, Expr.cviews]
    induction es using Exprs.rec (motive_1 := fun _ => True) with
    | nil => simp [Exprs.flats, Exprs.varss, Exprs.cviewss]
    | cons e es _ ihs =>
      obtain ⟨l1, l2, l3⟩ := ih e (by simp [Exprs.toList]) ht.1
      obtain ⟨r1, r2, r3⟩ := ihs (fun x hx => ih x (by simp [Exprs.toList, hx])) ht.2
      simp only [Exprs.flats, Exprs.varss, Exprs.cviewss, List.mem_append]
      refine ⟨?_, ?_, ?_⟩
      · rintro x (hx | hx)
        · exact ⟨(l1 x hx).1, fun v hv => Or.inl ((l1 x hx).2.1 v hv), fun v hv => Or.inl ((l1 x hx).2.2 v hv)⟩
        · exact ⟨(r1 x hx).1, fun v hv => Or.inr ((r1 x hx).2.1 v hv), fun v hv => Or.inr ((r1 x hx).2.2 v hv)⟩
      · rintro v (hv | hv)
        · obtain ⟨x, hx, h⟩ := l2 v hv; exact ⟨x, Or.inl hx, h⟩
        · obtain ⟨x, hx, h⟩ := r2 v hv; exact ⟨x, Or.inr hx, h⟩
      · rintro v (hv | hv)
        · obtain ⟨x, hx, h⟩ := l3 v hv; exact ⟨x, Or.inl hx, h⟩
        · obtain ⟨x, hx, h⟩ := r3 v hv; exact ⟨x, Or.inr hx, h⟩
    | _ => trivial
  | _ =>
    have h' := h
    simp only [Expr.WFTree] at h'
    refine ⟨fun x hx => ?_, fun v hv => ⟨_, by simp [Expr.flat], hv⟩, fun v hv => ⟨_, by simp [Expr.flat], hv⟩⟩
    simp only [Expr.flat, List.mem_singleton] at hx
    subst hx
    exact ⟨h', fun _ h => h, fun _ h => h⟩

theorem seq_bind {vok aok : ℕ → Bool} {BV BA : Set ℕ} (L : List (Expr α)) (b : Pack)
    (hL : ∀ x ∈ L, x.WFStmt ∧ x.Alive vok aok ∧ Disjoint BV ((x.valCells : Set ℕ) ∪ x.constCells) ∧ Disjoint BA (x.adjCells : Set ℕ))
    (hv : accessible vok b.val (sizeL L).val) (ha : accessible aok b.adj (sizeL L).adj)
    (hBV : rng b.val (sizeL L).val ⊆ BV) (hBA : rng b.adj (sizeL L).adj ⊆ BA) :
    SeqB vok aok BV BA (bindL L b) ∧ ∀ y ∈ bindL L b, y.lv ⊆ rng b.val (sizeL L).val := by
  induction L generalizing b with
  | nil => exact ⟨⟨fun x hx => by simp [bindL] at hx, List.Pairwise.nil⟩, fun x hx => by simp [bindL] at hx⟩
  | cons x xs ih =>
    simp only [sizeL, SizePack.add_val, SizePack.add_adj] at hv ha hBV hBA
    obtain ⟨hv1, hv2, hvd, hvs1, hvs2⟩ := accessible_split hv
    obtain ⟨ha1, ha2, had, has1, has2⟩ := accessible_split ha
    obtain ⟨h1, h2, h3, h4⟩ := hL x (by simp)
    obtain ⟨hb, hlv⟩ := stmt_bind h1 h2 hv1 ha1 (hvs1.trans hBV) (has1.trans hBA) h3 h4
    obtain ⟨hs, hls⟩ := ih (b.adv x.bindSize) (fun y hy => hL y (by simp [hy])) hv2 ha2 (hvs2.trans hBV) (has2.trans hBA)
    refine ⟨⟨?_, List.pairwise_cons.2 ⟨fun y hy => hvd.mono hlv (hls y hy), hs.disj⟩⟩, ?_⟩
    · intro y hy
      rcases List.mem_cons.1 hy with rfl | hy
      · exact hb
      · exact hs.stmt y hy
    · intro y hy
      rcases List.mem_cons.1 hy with rfl | hy
      · exact hlv.trans hvs1
      · exact (hls y hy).trans hvs2

/-- same statements up to the caches -/
abbrev SameL : List (Expr α) → List (Expr α) → Prop := List.Forall₂ fun x' x => x.isLeaf = true ∧ x'.strip = x.strip

theorem bindL_same {L : List (Expr α)} (h : ∀ x ∈ L, x.isLeaf = true) (b : Pack) : SameL (bindL L b) L := by
  induction L generalizing b with
  | nil => exact .nil
  | cons x xs ih => exact .cons ⟨h x (by simp), bind_strip x b⟩ (ih (fun y hy => h y (by simp [hy])) _)

theorem strip_place {x : Expr α} : x.strip.place = x.place := by
  cases x <;> rfl

theorem strip_ment {x : Expr α} : x.strip.ment = x.ment := by
  cases x with
  | eq v e w => simp only [Expr.strip, Expr.ment, strip_reads]
  | opEq op v e w c => simp only [Expr.strip, Expr.ment, strip_reads]
  | _ => exact strip_reads _

theorem strip_isLeaf {x : Expr α} : x.strip.isLeaf = x.isLeaf := by cases x <;> rfl

theorem isLeaf_of_strip {x' x : Expr α} (h : x.isLeaf = true ∧ x'.strip = x.strip) : x'.isLeaf = true := by rw [← strip_isLeaf, h.2, strip_isLeaf]; exact h.1

theorem place_of_strip {x' x : Expr α} (h : x.isLeaf = true ∧ x'.strip = x.strip) : x'.place = x.place := by rw [← strip_place, h.2, strip_place]

theorem ment_of_strip {x' x : Expr α} (h : x.isLeaf = true ∧ x'.strip = x.strip) : x'.ment = x.ment := by rw [← strip_ment, h.2, strip_ment]

theorem SameL.isEmpty {L' L : List (Expr α)} (h : SameL L' L) : L'.isEmpty = L.isEmpty := by cases h <;> rfl

theorem SameL.after {L' L : List (Expr α)} (h : SameL L' L) (ho : L.Pairwise After) : L'.Pairwise After := by
  induction h with
  | nil => exact List.Pairwise.nil
  | @cons x' x l' l h1 h2 ih =>
    obtain ⟨h3, h4⟩ := List.pairwise_cons.1 ho
    refine List.pairwise_cons.2 ⟨fun y' hy' => ?_, ih h4⟩
    have : ∃ y ∈ l, y.isLeaf = true ∧ y'.strip = y.strip := by
      clear * - h2 hy'
      induction h2 with
      | nil => simp at hy'
      | @cons z' z _ _ h1 _ ih =>
        rcases List.mem_cons.1 hy' with rfl | hy'
        · exact ⟨z, by simp, h1⟩
        · obtain ⟨y, hy, h⟩ := ih hy'
          exact ⟨y, by simp [hy], h⟩
    obtain ⟨y, hy, h5⟩ := this
    show Disjoint _ _
    rw [ment_of_strip h1, place_of_strip h5]
    exact h3 y hy

theorem ment_cells {x : Expr α} (a : ℕ) (ha : a ∈ x.ment) : a ∈ x.valCells ∨ a ∈ x.constCells := by
  have key : ∀ (v : View) (e y : Expr α), y.vars = v :: e.vars → y.cviews = e.cviews → a ∈ e.reads ∪ rng v.val v.size →
      a ∈ y.valCells ∨ a ∈ y.constCells := by
    intro v e y h1 h2 ha
    rcases ha with ha | ha
    · rcases reads_cells e a ha with h | h
      · obtain ⟨u, hu, h⟩ := mem_valCells.1 h
        exact Or.inl (mem_valCells.2 ⟨u, by rw [h1]; simp [hu], h⟩)
      · obtain ⟨c, hc, h⟩ := mem_constCells.1 h
        exact Or.inr (mem_constCells.2 ⟨c, by rw [h2]; exact hc, h⟩)
    · exact Or.inl (mem_valCells.2 ⟨v, by rw [h1]; simp, ha⟩)
  cases x with
  | eq v e w => exact key v e _ rfl rfl ha
  | opEq op v e w c => exact key v e _ rfl rfl ha
  | _ => exact reads_cells _ a ha

theorem after_of_usedAfter {x y : Expr α} (h : UsedAfter x y) : After x y := by
  refine Set.disjoint_left.2 fun a ha hp => ?_
  cases y with
  | eq v e w =>
    obtain ⟨k, hk, rfl⟩ := mem_rng_iff.1 hp
    obtain ⟨h1, h2, _⟩ := h v rfl k hk
    exact (ment_cells _ ha).elim h1 h2
  | _ => exact hp.elim

/-- what is known about a bound sequence of statements -/
structure EvalB (p b : Expr α) (BV BA : Set ℕ) (vok aok : ℕ → Bool) : Prop where
  seq : SeqB vok aok BV BA b.flat
  tree : b.TreeB
  same : SameL b.flat p.flat
  shape : b.shape = p.shape
  wf : p.WFTree
  nonempty : p.flat ≠ []

/-- what is known about a bound program -/
structure ProgB (p b : Expr α) (BV BA : Set ℕ) (vok aok : ℕ → Bool) : Prop extends EvalB p b BV BA vok aok where
  order : p.flat.Pairwise After

theorem bindExpr_eval {p : Expr α} {s : St α} {qv qa : ℕ} {jv ja : ℕ → α} (ht : p.WFTree) (hne : p.flat ≠ []) (hal : p.Alive s.vok s.aok)
    (hf : Fresh s p.bindSize qv qa) :
    EvalB p (bindExpr p qv qa jv ja s).1 (blockV qv p.bindSize) (blockA qa p.bindSize)
      (bindExpr p qv qa jv ja s).2.vok (bindExpr p qv qa jv ja s).2.aok := by
  have hmv : ∀ a, s.vok a = true → (bindExpr p qv qa jv ja s).2.vok a = true := by
    intro a h; simp [bindExpr, St.allocate, h]
  have hma : ∀ a, s.aok a = true → (bindExpr p qv qa jv ja s).2.aok a = true := by
    intro a h; simp [bindExpr, St.allocate, h]
  obtain ⟨f1, f2, f3⟩ := flat_spec p ht
  have hsz := (flat_bind p ⟨none, none⟩).2
  have hfl := (flat_bind p ⟨vecData qv p.bindSize.val, vecData qa p.bindSize.adj⟩).1
  have hleaf : ∀ x ∈ p.flat, x.isLeaf = true := fun x hx => WFStmt_isLeaf (f1 x hx).1
  have hseq := seq_bind (vok := (bindExpr p qv qa jv ja s).2.vok) (aok := (bindExpr p qv qa jv ja s).2.aok)
    (BV := blockV qv p.bindSize) (BA := blockA qa p.bindSize) p.flat ⟨vecData qv p.bindSize.val, vecData qa p.bindSize.adj⟩
    (fun x hx => ⟨(f1 x hx).1,
      ⟨fun v hv => ⟨(hal.1 v ((f1 x hx).2.1 v hv)).1.mono hmv, (hal.1 v ((f1 x hx).2.1 v hv)).2.mono hma⟩,
        fun c hc => (hal.2 c ((f1 x hx).2.2 c hc)).mono hmv⟩, by
      rw [Set.disjoint_left]
      intro a ha hr
      obtain ⟨k, hk, rfl⟩ := mem_rng_iff.1 ha
      have h0 := hf.1 k hk
      rcases hr with h | h
      · obtain ⟨v, hv, h⟩ := mem_valCells.1 h
        obtain ⟨j, hj, h⟩ := mem_rng_iff.1 h
        have := accessible_mem (hal.1 v ((f1 x hx).2.1 v hv)).1 hj
        rw [← h] at this
        exact absurd (h0.symm.trans this) (by simp)
      · obtain ⟨v, hv, h⟩ := mem_constCells.1 h
        obtain ⟨j, hj, h⟩ := mem_rng_iff.1 h
        have := accessible_mem (hal.2 v ((f1 x hx).2.2 v hv)) hj
        rw [← h] at this
        exact absurd (h0.symm.trans this) (by simp), by
      rw [Set.disjoint_left]
      intro a ha hr
      obtain ⟨k, hk, rfl⟩ := mem_rng_iff.1 ha
      have h0 := hf.2 k hk
      obtain ⟨v, hv, h⟩ := mem_adjCells.1 hr
      obtain ⟨j, hj, h⟩ := mem_rng_iff.1 h
      have := accessible_mem (hal.1 v ((f1 x hx).2.1 v hv)).2 hj
      rw [← h] at this
      exact absurd (h0.symm.trans this) (by simp)⟩)
    (by rw [← hsz]; exact accessible_vecData fun k hk => by simp [bindExpr, St.allocate, hk])
    (by rw [← hsz]; exact accessible_vecData fun k hk => by simp [bindExpr, St.allocate, hk])
    (by rw [← hsz]; exact rng_vecData_sub _ _) (by rw [← hsz]; exact rng_vecData_sub _ _)
  refine ⟨?_, TreeB_bind p _ ht, ?_, Expr.shape_of_strip (bind_strip p _), ht, hne⟩
  · show SeqB _ _ _ _ (Expr.bind p _).1.flat
    rw [hfl]
    exact hseq.1
  · show SameL (Expr.bind p _).1.flat _
    rw [hfl]
    exact bindL_same hleaf _

theorem bindExpr_prog {p : Expr α} {s : St α} {qv qa : ℕ} {jv ja : ℕ → α} (hp : p.Program) (hal : p.Alive s.vok s.aok)
    (hf : Fresh s p.bindSize qv qa) :
    ProgB p (bindExpr p qv qa jv ja s).1 (blockV qv p.bindSize) (blockA qa p.bindSize)
      (bindExpr p qv qa jv ja s).2.vok (bindExpr p qv qa jv ja s).2.aok :=
  ⟨bindExpr_eval hp.tree hp.nonempty hal hf, hp.order.imp after_of_usedAfter⟩

theorem view_last (e : Expr α) (ht : e.TreeB) : ∀ x ∈ e.flat.getLast?, e.view.val = x.view.val ∧ e.shape = x.shape := by
  induction e using Expr.induct with
  | glue l r w ihl ihr =>
    intro x hx
    obtain ⟨_, htr, hne, hw, hsh⟩ := ht
    simp only [Expr.flat] at hx
    rw [List.getLast?_append_of_ne_nil _ hne] at hx
    obtain ⟨h1, h2⟩ := ihr htr x hx
    exact ⟨hw.trans h1, hsh.trans h2⟩
  | forEach es w ih =>
    intro x hx
    obtain ⟨hts, hl⟩ := ht
    have : ∀ e ∈ es.last, e.view.val = x.view.val ∧ e.shape = x.shape := by
      have hl1 : ∀ e ∈ es.last, e.flat ≠ [] := fun e he => (hl e he).1
      clear hl
      simp only [Expr.flat] at hx
      induction es using Exprs.rec (motive_1 := fun _ => True) with
      | nil => intro e he; simp [Exprs.last] at he
      | cons y ys _ ihs =>
        cases ys with
        | nil =>
          intro e he
          simp [Exprs.last] at he
          subst he
          simp only [Exprs.flats, List.append_nil] at hx
          exact ih y (by simp [Exprs.toList]) hts.1 x hx
        | cons z zs =>
          have hne := Exprs.last_flats (es := .cons z zs) hl1 (by simp [Exprs.length])
          rw [show (Exprs.cons y (.cons z zs)).flats = y.flat ++ (Exprs.cons z zs).flats from rfl,
            List.getLast?_append_of_ne_nil _ hne] at hx
          exact ihs (fun e he => ih e (by simp only [Exprs.toList, List.mem_cons] at he ⊢; exact Or.inr he)) hx hts.2 hl1
      | _ => trivial
    have hn : es.length ≠ 0 := by
      intro h
      cases es with
      | nil => simp [Expr.flat, Exprs.flats] at hx
      | cons => simp [Exprs.length] at h
    obtain ⟨e, he⟩ := Exprs.exists_last hn
    obtain ⟨h1, h2⟩ := this e he
    obtain ⟨_, h3, h4, _⟩ := hl e he
    exact ⟨h3.trans h1, h4.trans h2⟩
  | _ =>
    intro x hx
    simp [Expr.flat] at hx
    subst hx
    exact ⟨rfl, rfl⟩

/-- value cells updated by a compound assignment -/
def Expr.upd : Expr α → Set ℕ
  | .opEq _ v _ _ _ => rng v.val v.size
  | _ => ∅

theorem mem_updatedCells {p : Expr α} {c : ℕ} : c ∈ p.updatedCells ↔ ∃ x ∈ p.flat, c ∈ x.upd := by
  simp only [Expr.updatedCells, List.mem_toFinset, List.mem_flatMap, List.mem_filterMap, mem_cells]
  constructor
  · rintro ⟨v, ⟨x, hx, hv⟩, h⟩
    refine ⟨x, hx, ?_⟩
    cases x <;> simp [Expr.updated] at hv
    subst hv; exact h
  · rintro ⟨x, hx, h⟩
    cases x with
    | opEq op v e w c => exact ⟨v, ⟨_, hx, rfl⟩, h⟩
    | _ => exact h.elim

theorem SameL.getLast {L' L : List (Expr α)} (h : SameL L' L) : ∀ y ∈ L'.getLast?, ∃ x ∈ L.getLast?, x.isLeaf = true ∧ y.strip = x.strip := by
  induction h with
  | nil => intro y hy; simp at hy
  | @cons x' x l' l h1 h2 ih =>
    intro y hy
    cases h2 with
    | nil =>
      simp at hy
      subst hy
      exact ⟨x, by simp, h1⟩
    | cons h3 h4 =>
      rw [List.getLast?_cons_cons] at hy ⊢
      exact ih y hy

theorem storedOutside_of_strip {x y : Expr α} {T : Finset ℕ} (h : y.strip = x.strip) (hx : x.StoredOutside T) : y.StoredOutside T := by
  cases x <;> cases y <;> simp [Expr.strip] at h <;> simp_all [Expr.StoredOutside]

/-- where the value of a bound statement is stored -/
theorem stored_cells {vok aok : ℕ → Bool} {BV BA : Set ℕ} {y : Expr α} (h : StmtB vok aok BV BA y) {T : Finset ℕ} (hT : y.StoredOutside T)
    (hp : ∀ c ∈ y.place, c ∉ T) : ∀ c ∈ rng y.view.val y.size, c ∈ BV ∨ c ∉ T := by
  intro c hc
  cases y with
  | var u => obtain ⟨k, hk, rfl⟩ := mem_rng_iff.1 hc; exact Or.inr (hT k hk)
  | cview sh q => obtain ⟨k, hk, rfl⟩ := mem_rng_iff.1 hc; exact Or.inr (hT k hk)
  | const => exact absurd h.2.2 (by simp [Expr.getRef])
  | ifElse => exact absurd h.2.1 (by simp [Expr.isIf])
  | glue => exact h.1.wf.elim
  | forEach => exact h.1.wf.elim
  | eq v e w =>
    have h : EqB vok aok BV BA v e w := h
    refine Or.inr (hp c ?_)
    show c ∈ rng v.val v.size
    have h1 : (Expr.eq v e w).size = v.size := by
      show w.shape.size = v.shape.size
      rw [h.wshape]
    rw [h1] at hc
    rw [← h.wval]
    exact hc
  | opEq op v e w d =>
    have h : OpB vok aok BV BA v e w d := h
    have h1 : (Expr.opEq op v e w d).size = v.size := by
      show w.shape.size = v.shape.size
      rw [h.wshape]
    rw [h1, show (Expr.opEq op v e w d).view.val = v.val from h.wval] at hc
    obtain ⟨k, hk, rfl⟩ := mem_rng_iff.1 hc
    exact Or.inr (hT k hk)
  | _ => exact Or.inl (h.1.ownV (Or.inr hc))

theorem PureB.mono {vok aok vok' aok' : ℕ → Bool} {BV BA : Set ℕ} {e : Expr α} (hv : ∀ a, vok a = true → vok' a = true)
    (ha : ∀ a, aok a = true → aok' a = true) (h : PureB vok aok BV BA e) : PureB vok' aok' BV BA e :=
  ⟨h.wf, h.wb.mono hv ha, h.ownV, h.ownA, h.dV, h.dA⟩

theorem StmtB.mono {vok aok vok' aok' : ℕ → Bool} {BV BA : Set ℕ} {e : Expr α} (hv : ∀ a, vok a = true → vok' a = true)
    (ha : ∀ a, aok a = true → aok' a = true) (h : StmtB vok aok BV BA e) : StmtB vok' aok' BV BA e := by
  cases e with
  | eq v e w =>
    have h : EqB vok aok BV BA v e w := h
    exact { h with wb := h.wb.mono hv ha, accV := h.accV.mono hv, accA := h.accA.mono ha }
  | opEq op v e w c =>
    have h : OpB vok aok BV BA v e w c := h
    exact { h with pure := h.pure.mono hv ha, accV := h.accV.mono hv, accA := h.accA.mono ha, caccV := h.caccV.mono hv, caccA := h.caccA.mono ha }
  | _ => exact ⟨h.1.mono hv ha, h.2⟩

theorem EvalB.mono {p b : Expr α} {BV BA : Set ℕ} {vok aok vok' aok' : ℕ → Bool} (hv : ∀ a, vok a = true → vok' a = true)
    (ha : ∀ a, aok a = true → aok' a = true) (h : EvalB p b BV BA vok aok) : EvalB p b BV BA vok' aok' :=
  { h with seq := ⟨fun x hx => (h.seq.stmt x hx).mono hv ha, h.seq.disj⟩ }

theorem ProgB.mono {p b : Expr α} {BV BA : Set ℕ} {vok aok vok' aok' : ℕ → Bool} (hv : ∀ a, vok a = true → vok' a = true)
    (ha : ∀ a, aok a = true → aok' a = true) (h : ProgB p b BV BA vok aok) : ProgB p b BV BA vok' aok' :=
  ⟨h.toEvalB.mono hv ha, h.order⟩

theorem shape_last (e : Expr α) (ht : e.WFTree) : ∀ x ∈ e.flat.getLast?, e.shape = x.shape := by
  induction e using Expr.induct with
  | glue l r w ihl ihr =>
    intro x hx
    obtain ⟨_, htr, hne, hsh⟩ := ht
    simp only [Expr.flat] at hx
    rw [List.getLast?_append_of_ne_nil _ hne] at hx
    exact hsh.trans (ihr htr x hx)
  | forEach es w ih =>
    intro x hx
    obtain ⟨hts, hl⟩ := ht
    have : ∀ e ∈ es.last, e.shape = x.shape := by
      have hl1 : ∀ e ∈ es.last, e.flat ≠ [] := fun e he => (hl e he).1
      clear hl
      simp only [Expr.flat] at hx
      induction es using Exprs.rec (motive_1 := fun _ => True) with
      | nil => intro e he; simp [Exprs.last] at he
      | cons y ys _ ihs =>
        cases ys with
        | nil =>
          intro e he
          simp [Exprs.last] at he
          subst he
          simp only [Exprs.flats, List.append_nil] at hx
          exact ih y (by simp [Exprs.toList]) hts.1 x hx
        | cons z zs =>
          have hne := Exprs.last_flats (es := .cons z zs) hl1 (by simp [Exprs.length])
          rw [show (Exprs.cons y (.cons z zs)).flats = y.flat ++ (Exprs.cons z zs).flats from rfl,
            List.getLast?_append_of_ne_nil _ hne] at hx
          exact ihs (fun e he => ih e (by simp only [Exprs.toList, List.mem_cons] at he ⊢; exact Or.inr he)) hx hts.2 hl1
      | _ => trivial
    have hn : es.length ≠ 0 := by
      intro h
      cases es with
      | nil => simp [Expr.flat, Exprs.flats] at hx
      | cons => simp [Exprs.length] at h
    obtain ⟨e, he⟩ := Exprs.exists_last hn
    exact (hl e he).2.trans (this e he)
  | _ =>
    intro x hx
    simp [Expr.flat] at hx
    subst hx
    rfl

theorem WFStmt.shapeOk {x : Expr α} (h : x.WFStmt) : x.shape.Ok := by
  by_cases hs : x.isStmt = false
  · exact (WFStmt_pure hs h).1.shapeOk
  · cases x with
    | eq v e w => show w.shape.Ok; rw [h.2.2.2.1]; exact h.2.1
    | opEq op v e w c => show w.shape.Ok; rw [h.2.2.2.1]; exact h.2.1
    | _ => simp [Expr.isStmt] at hs

theorem sizeR_last {L : List (Expr α)} : ∀ x ∈ L.getLast?, sizeR L = x.size := by
  induction L with
  | nil => intro x hx; simp at hx
  | cons y ys ih =>
    cases ys with
    | nil => intro x hx; simp at hx; subst hx; rfl
    | cons z zs =>
      intro x hx
      rw [List.getLast?_cons_cons] at hx
      exact ih x hx

theorem sizeR_flat {p : Expr α} (hp : p.WFTree) (hne : p.flat ≠ []) : sizeR p.flat = p.size := by
  have h := List.getLast?_eq_some_getLast hne
  rw [sizeR_last _ h, Expr.size, Expr.size, shape_last p hp _ h]

theorem Expr.WFTree.shapeOk {p : Expr α} (ht : p.WFTree) (hne : p.flat ≠ []) : p.shape.Ok := by
  have h := List.getLast?_eq_some_getLast hne
  rw [shape_last p ht _ h]
  exact WFStmt.shapeOk ((flat_spec p ht).1 _ (List.getLast_mem hne)).1

theorem Expr.Program.shapeOk {p : Expr α} (hp : p.Program) : p.shape.Ok := hp.tree.shapeOk hp.nonempty

theorem mem_placeCells {p : Expr α} {c : ℕ} : c ∈ p.placeCells ↔ ∃ x ∈ p.flat, c ∈ x.place := by
  simp only [Expr.placeCells, List.mem_toFinset, List.mem_flatMap, List.mem_filterMap, mem_cells]
  constructor
  · rintro ⟨v, ⟨x, hx, hv⟩, h⟩
    refine ⟨x, hx, ?_⟩
    cases x <;> simp [Expr.placeholder] at hv
    subst hv; exact h
  · rintro ⟨x, hx, h⟩
    cases x with
    | eq v e w => exact ⟨v, ⟨_, hx, rfl⟩, h⟩
    | _ => exact h.elim

theorem fresh_block {ok : ℕ → Bool} {q n : ℕ} (hf : ∀ k < n, ok (q + k) = false) {a : ℕ} (ha : ok a = true) : ¬ (q ≤ a ∧ a < q + n) := by
  rintro ⟨h1, h2⟩
  have := hf (a - q) (by omega)
  rw [Nat.add_sub_cancel' h1, ha] at this
  cases this

theorem notin_blockV {s : St α} {n : SizePack} {qv qa : ℕ} (hf : Fresh s n qv qa) {a : ℕ} (ha : s.vok a = true) : a ∉ blockV qv n := by
  simpa [blockV, mem_rng, addr_some] using fresh_block hf.1 ha

theorem notin_blockA {s : St α} {n : SizePack} {qv qa : ℕ} (hf : Fresh s n qv qa) {a : ℕ} (ha : s.aok a = true) : a ∉ blockA qa n := by
  simpa [blockA, mem_rng, addr_some] using fresh_block hf.2 ha

theorem later_prog {p : Expr α} {s s1 : St α} {qv qa : ℕ} {jv ja : ℕ → α} (hp : p.Program) (hal : p.Alive s.vok s.aok) (hf : Fresh s p.bindSize qv qa) (hl : Later (bindExpr p qv qa jv ja s).2 s1) :
    ProgB p (bindExpr p qv qa jv ja s).1 (blockV qv p.bindSize) (blockA qa p.bindSize) s1.vok s1.aok :=
  (bindExpr_prog hp hal hf).mono hl.1 hl.2

theorem prog_adjCells_alive {p : Expr α} {vok aok : ℕ → Bool} (h : p.Alive vok aok) {a : ℕ} (ha : a ∈ p.adjCells) : aok a = true :=
  adjCells_alive h a ha

theorem valCells_alive {p : Expr α} {vok aok : ℕ → Bool} (h : p.Alive vok aok) (a : ℕ) (ha : a ∈ p.valCells) : vok a = true := by
  obtain ⟨w, hw, h1⟩ := mem_valCells.1 ha
  obtain ⟨k, hk, rfl⟩ := mem_rng_iff.1 h1
  have hacc := (h.1 w hw).1
  cases hq : w.val with
  | none => rw [hq] at hacc; simp only [accessible] at hacc; omega
  | some q => rw [hq] at hacc; exact hacc k hk

end FastAD
