import Verif.Proof.ProgApi

/-!
# The value of an expression depends on its variables only
-/

namespace FastAD

variable [HasInf ℝ] [LinAlg ℝ]

theorem denotes_trunc_congr {m m' : ℕ → ℝ} (es : Exprs ℝ) (h : ∀ e ∈ es.toList, ∀ k < e.size, e.denote m k = e.denote m' k) :
    ((es.denotes m).map fun x => (x.1, trunc x.1.size x.2)) = (es.denotes m').map fun x => (x.1, trunc x.1.size x.2) := by
  induction es using Exprs.rec (motive_1 := fun _ => True) with
  | nil => rfl
  | cons e es _ ih =>
    simp only [Exprs.denotes, List.map_cons]
    rw [ih fun x hx => h x (by simp [Exprs.toList, hx])]
    congr 2
    exact trunc_congr (h e (by simp [Exprs.toList]))
  | _ => trivial

theorem denotes_map_congr {m m' : ℕ → ℝ} {k : ℕ} (es : Exprs ℝ) (h : ∀ e ∈ es.toList, e.denote m k = e.denote m' k) :
    ((es.denotes m).map fun x => x.2 k) = (es.denotes m').map fun x => x.2 k := by
  induction es using Exprs.rec (motive_1 := fun _ => True) with
  | nil => rfl
  | cons e es _ ih =>
    simp only [Exprs.denotes, List.map_cons]
    rw [ih fun x hx => h x (by simp [Exprs.toList, hx]), h e (by simp [Exprs.toList])]
  | _ => trivial

/-- the coefficients of the value of a well-formed expression depend only on the cells of its variables and constant views -/
theorem denote_congr {m m' : ℕ → ℝ} (e : Expr ℝ) : e.WF → (∀ a ∈ e.reads, m a = m' a) → ∀ k < e.size, e.denote m k = e.denote m' k := by
  induction e using Expr.induct with
  | var v => intro _ h k hk; exact h _ (add_mem_rng hk)
  | const sh c => intros; rfl
  | cview sh p => intro _ h k hk; exact h _ (add_mem_rng hk)
  | unary op e w ih =>
    intro hwf h k hk
    simp only [Expr.denote]
    rw [ih hwf.1 h k (by have : (Expr.unary op e w).size = e.size := by simp [Expr.size, Expr.shape, Expr.view, hwf.2.1]
                         omega)]
  | binary op l r w ihl ihr =>
    intro hwf h k hk
    obtain ⟨wfl, wfr, hok, hd, -⟩ := hwf
    simp only [Expr.denote]
    have aux : ∀ x : Expr ℝ, x.WF → (x.shape.isScl = true ∨ sameDims x.shape w.shape) → (if x.shape.isScl = true then 0 else k) < x.size := by
      intro x hx hd
      split
      · rename_i hs; rw [Expr.size, hx.shapeOk.size_scl hs]; exact Nat.one_pos
      · rename_i hs
        have := hd.resolve_left hs
        have hk : k < w.shape.rows * w.shape.cols := hk
        rw [← this.1, ← this.2] at hk
        exact hk
    rw [ihl wfl (fun a ha => h a (Or.inl ha)) _ (aux l wfl hd.1), ihr wfr (fun a ha => h a (Or.inr ha)) _ (aux r wfr hd.2.1)]
  | pow n e w ih =>
    intro hwf h k hk
    simp only [Expr.denote]
    rw [ih hwf.1 h k (by have : (Expr.pow n e w).size = e.size := by simp [Expr.size, Expr.shape, Expr.view, hwf.2.1]
                         omega)]
  | prodElem e w c ih =>
    intro hwf h k hk
    simp only [Expr.denote]
    exact Finset.prod_congr rfl fun j hj => ih hwf.1 h j (Finset.mem_range.1 hj)
  | transpose e w ih =>
    intro hwf h k hk
    obtain ⟨wfe, -, hsh⟩ := hwf
    simp only [Expr.denote]
    refine ih wfe h _ ?_
    have hk : k < w.shape.rows * w.shape.cols := hk
    show _ < e.shape.rows * e.shape.cols
    rw [hsh, Shape.mat] at hk ⊢
    have := idx_lt hk
    exact idx_lt' this.2 this.1
  | dot l r w ihl ihr =>
    intro hwf h k hk
    obtain ⟨wfl, wfr, hkl, hkr, hcr, hsh, -⟩ := hwf
    have hcols : r.shape.kind = .vec → r.shape.cols = 1 := by
      intro hk; have := wfr.shapeOk; rw [Shape.Ok, hk] at this; exact this
    have hwsz : w.size = l.shape.rows * r.shape.cols := by
      rw [View.size, hsh]
      cases hk : r.shape.kind
      · exact absurd hk hkr
      · simp [Shape.ofDims, Shape.size, hcols hk]
      · simp [Shape.ofDims, Shape.size]
    have hk : k < w.size := hk
    rw [hwsz] at hk
    have hi := idx_lt hk
    simp only [Expr.denote]
    refine Finset.sum_congr rfl fun q hq => ?_
    have hq := Finset.mem_range.1 hq
    rw [ihl wfl (fun a ha => h a (Or.inl ha)) _ (idx_lt' hi.1 hq), ihr wfr (fun a ha => h a (Or.inr ha)) _ ?_]
    show _ < r.shape.rows * r.shape.cols
    rw [← hcr]
    exact idx_lt' hq hi.2
  | sumIter es w ih =>
    intro hwf h k hk
    simp only [Expr.denote]
    rw [denotes_map_congr es fun e he => ih e he (wfs_iff.1 hwf.1 e he) (fun a ha => h a (mem_readss.2 ⟨e, he, ha⟩)) k ?_]
    have hk : k < w.size := hk
    simpa [Expr.size, hwf.2.2 e he, View.size] using hk
  | prodIter es w ih =>
    intro hwf h k hk
    simp only [Expr.denote]
    rw [denotes_map_congr es fun e he => ih e he (wfs_iff.1 hwf.1 e he) (fun a ha => h a (mem_readss.2 ⟨e, he, ha⟩)) k ?_]
    have hk : k < w.size := hk
    simpa [Expr.size, (hwf.2.2 e he).1, View.size] using hk
  | reduce op es w ih =>
    intro hwf h k hk
    have h1 := reduce_value hwf m
    have h2 := reduce_value hwf m'
    rw [denotes_trunc_congr es fun e he => ih e he (wfs_iff.1 hwf.1 e he) fun a ha => h a (mem_readss.2 ⟨e, he, ha⟩), h2] at h1
    simp only [Expr.denote]
    exact (Option.some.inj h1).symm
  | ifElse c x y w ihc ihx ihy =>
    intro hwf h k hk
    obtain ⟨wfc, wfx, wfy, hkc, -, hsx, hsy, -⟩ := hwf
    have hc1 : c.size = 1 := wfc.shapeOk.size_scl (by simp [Shape.isScl, hkc])
    have hk : k < w.shape.size := hk
    simp only [Expr.denote]
    rw [ihc wfc (fun a ha => h a (Or.inl ha)) 0 (by omega), ihx wfx (fun a ha => h a (Or.inr (Or.inl ha))) k (by simpa [Expr.size, hsx] using hk),
      ihy wfy (fun a ha => h a (Or.inr (Or.inr ha))) k (by simpa [Expr.size, hsy] using hk)]
  | eq => intro h; exact h.elim
  | opEq => intro h; exact h.elim
  | glue => intro h; exact h.elim
  | forEach => intro h; exact h.elim

/-- Two stores agree on the cells mentioned by a sequence of statements other than its placeholders. -/
def AgreeL (L : List (Expr ℝ)) (m m' : ℕ → ℝ) : Prop := ∀ x ∈ L, ∀ a ∈ x.valCells ∪ x.constCells, (∀ y ∈ L, a ∉ y.place) → m a = m' a

section
variable {x : Expr ℝ} {xs : List (Expr ℝ)} {m m' : ℕ → ℝ}

/-- cells mentioned by a statement are not placeholders of later ones -/
theorem mentioned_later (ho : (x :: xs).Pairwise UsedAfter) : ∀ a ∈ x.valCells ∪ x.constCells, ∀ y ∈ xs, a ∉ y.place := by
  obtain ⟨ho1, -⟩ := List.pairwise_cons.1 ho
  intro a ha y hy hp
  cases y with
  | eq v e w =>
    obtain ⟨j, hj, rfl⟩ := mem_rng_iff.1 hp
    have := ho1 _ hy v rfl j hj
    rcases Finset.mem_union.1 ha with h | h
    · exact this.1 h
    · exact this.2.1 h
  | _ => exact hp.elim

/-- the expression on the right of a statement (the statement itself if it is an expression) -/
def Expr.rhs : Expr ℝ → Expr ℝ
  | .eq _ e _ => e
  | .opEq _ _ e _ _ => e
  | e => e

theorem rhs_reads {x : Expr ℝ} (hx : x.WFStmt) : x.rhs.WF ∧ ∀ a ∈ x.rhs.reads, a ∈ x.valCells ∪ x.constCells ∧ a ∉ x.place := by
  cases x with
  | eq v e w =>
    refine ⟨hx.1, fun c hc => ⟨?_, fun hp => ?_⟩⟩
    · rcases reads_cells e c hc with h | h
      · refine Finset.mem_union.2 (Or.inl ?_)
        obtain ⟨u, hu, h⟩ := mem_valCells.1 h
        exact mem_valCells.2 ⟨u, by simp [Expr.vars, hu], h⟩
      · exact Finset.mem_union.2 (Or.inr h)
    · obtain ⟨i, hi, rfl⟩ := mem_rng_iff.1 hp
      have := hx.2.2.2.2.2 i hi
      exact (reads_cells e _ hc).elim this.1 this.2.1
  | opEq op v e w c =>
    refine ⟨hx.1, fun c hc => ⟨?_, fun hp => hp.elim⟩⟩
    rcases reads_cells e c hc with h | h
    · refine Finset.mem_union.2 (Or.inl ?_)
      obtain ⟨u, hu, h⟩ := mem_valCells.1 h
      exact mem_valCells.2 ⟨u, by simp [Expr.vars, hu], h⟩
    · exact Finset.mem_union.2 (Or.inr h)
  | glue => exact hx.elim
  | forEach => exact hx.elim
  | _ => exact ⟨hx.1, fun c hc => ⟨Finset.mem_union.2 (reads_cells _ c hc), fun h => h.elim⟩⟩

/-- the stores agree on what the first statement reads -/
theorem AgreeL.reads (h : AgreeL (x :: xs) m m') (hx : x.WFStmt) (ho : (x :: xs).Pairwise UsedAfter) : ∀ a ∈ x.rhs.reads, m a = m' a := by
  intro a ha
  obtain ⟨h1, h2⟩ := (rhs_reads hx).2 a ha
  refine h x (by simp) a h1 fun y hy => ?_
  rcases List.mem_cons.1 hy with rfl | hy
  · exact h2
  · exact mentioned_later ho a h1 y hy

/-- executing the first statement -/
theorem AgreeL.exec (h : AgreeL (x :: xs) m m') (hx : x.WFStmt) (ho : (x :: xs).Pairwise UsedAfter) (a : ℕ) :
    (x.exec m a = x.exec m' a) ∨ (x.exec m a = m a ∧ x.exec m' a = m' a ∧ a ∉ x.place) := by
  have hread := denote_congr x.rhs (rhs_reads hx).1 (h.reads hx ho)
  cases x with
  | eq v e w =>
    by_cases ha : a ∈ rng v.val v.size
    · obtain ⟨j, hj, rfl⟩ := mem_rng_iff.1 ha
      left
      simp only [Expr.exec]
      rw [assign_add hj, assign_add hj]
      exact hread j (by simpa [Expr.rhs, Expr.size, hx.2.2.1, View.size] using hj)
    · exact Or.inr ⟨assign_off ha, assign_off ha, ha⟩
  | opEq op v e w c =>
    by_cases ha : a ∈ rng v.val v.size
    · obtain ⟨j, hj, rfl⟩ := mem_rng_iff.1 ha
      left
      simp only [Expr.exec]
      rw [assign_add hj, assign_add hj]
      have hm : addr v.val + j ∈ (Expr.opEq op v e w c).valCells ∪ (Expr.opEq op v e w c).constCells :=
        Finset.mem_union.2 (Or.inl (mem_valCells.2 ⟨v, by simp [Expr.vars], add_mem_rng hj⟩))
      have hv : m (addr v.val + j) = m' (addr v.val + j) := by
        refine h (.opEq op v e w c) List.mem_cons_self _ hm fun y hy => ?_
        rcases List.mem_cons.1 hy with rfl | hy
        · exact id
        · exact mentioned_later ho _ hm y hy
      have hread : ∀ k < e.size, e.denote m k = e.denote m' k := hread
      rw [hv, hread]
      split
      · rename_i hs; rw [Expr.size, hx.1.shapeOk.size_scl hs]; exact Nat.one_pos
      · rename_i hs
        have := hx.2.2.1.resolve_left hs
        simpa [Expr.size, this, View.size] using hj
    · exact Or.inr ⟨assign_off ha, assign_off ha, fun h => h.elim⟩
  | glue => exact hx.elim
  | forEach => exact hx.elim
  | _ => exact Or.inr ⟨rfl, rfl, fun h => h.elim⟩

/-- after the first statement the stores agree on what the others mention -/
theorem AgreeL.step (h : AgreeL (x :: xs) m m') (hx : x.WFStmt) (ho : (x :: xs).Pairwise UsedAfter) : AgreeL xs (x.exec m) (x.exec m') := by
  intro z hz a ha hp
  rcases h.exec hx ho a with h | ⟨h1, h2, h3⟩
  · exact h
  · rw [h1, h2]
    refine h z (List.mem_cons_of_mem _ hz) a ha fun u hu => ?_
    rcases List.mem_cons.1 hu with rfl | hu
    · exact h3
    · exact hp u hu

/-- the value of the first statement -/
theorem AgreeL.result (h : AgreeL (x :: xs) m m') (hx : x.WFStmt) (ho : (x :: xs).Pairwise UsedAfter) {k : ℕ} (hk : k < x.size) :
    x.result m k = x.result m' k := by
  have hread := denote_congr x.rhs (rhs_reads hx).1 (h.reads hx ho)
  cases x with
  | eq v e w =>
    have hk : k < v.size := by simpa [Expr.size, Expr.shape, Expr.view, hx.2.2.2.1, View.size] using hk
    exact hread k (by simpa [Expr.rhs, Expr.size, hx.2.2.1, View.size] using hk)
  | opEq op v e w c =>
    have hk : k < v.size := by simpa [Expr.size, Expr.shape, Expr.view, hx.2.2.2.1, View.size] using hk
    have := h.exec hx ho (addr v.val + k)
    simp only [Expr.exec] at this
    rw [assign_add hk, assign_add hk] at this
    rcases this with h' | h'
    · exact h'
    · simp only [Expr.result]
      rw [h'.1, h'.2.1]
      have hm : addr v.val + k ∈ (Expr.opEq op v e w c).valCells ∪ (Expr.opEq op v e w c).constCells :=
        Finset.mem_union.2 (Or.inl (mem_valCells.2 ⟨v, by simp [Expr.vars], add_mem_rng hk⟩))
      refine h (.opEq op v e w c) List.mem_cons_self _ hm fun y hy => ?_
      rcases List.mem_cons.1 hy with rfl | hy
      · exact id
      · exact mentioned_later ho _ hm y hy
  | glue => exact hx.elim
  | forEach => exact hx.elim
  | _ => exact hread k hk

end

/-- The value of a sequence of statements depends only on the cells of its variables and constant views other than placeholders. -/
theorem resultL_congr {L : List (Expr ℝ)} : ∀ {m m' : ℕ → ℝ}, (∀ x ∈ L, x.WFStmt) → L.Pairwise UsedAfter →
    AgreeL L m m' → ∀ k < sizeR L, resultL L m k = resultL L m' k := by
  induction L with
  | nil => intro m m' _ _ _ k hk; simp [sizeR] at hk
  | cons x xs ih =>
    intro m m' hwf ho hag k hk
    cases xs with
    | nil => exact hag.result (hwf x (by simp)) ho hk
    | cons y ys =>
      exact ih (fun z hz => hwf z (by simp [hz])) (List.pairwise_cons.1 ho).2 (hag.step (hwf x (by simp)) ho) k hk

theorem agree_flat {p : Expr ℝ} (hp : p.Program) {m m' : ℕ → ℝ} (h : ∀ a ∈ (p.valCells ∪ p.constCells) \ p.placeCells, m a = m' a) :
    AgreeL p.flat m m' := by
  obtain ⟨f1, -, -⟩ := flat_spec p hp.tree
  refine fun x hx a ha hpl => h a (Finset.mem_sdiff.2 ⟨?_, fun hc => ?_⟩)
  · rcases Finset.mem_union.1 ha with h | h
    · obtain ⟨u, hu, h⟩ := mem_valCells.1 h
      exact Finset.mem_union.2 (Or.inl (mem_valCells.2 ⟨u, (f1 x hx).2.1 u hu, h⟩))
    · obtain ⟨u, hu, h⟩ := mem_constCells.1 h
      exact Finset.mem_union.2 (Or.inr (mem_constCells.2 ⟨u, (f1 x hx).2.2 u hu, h⟩))
  · obtain ⟨y, hy, h⟩ := mem_placeCells.1 hc
    exact hpl y hy h

/-- The value of a program depends only on the cells of its variables and constant views other than placeholders. -/
theorem result_congr {p : Expr ℝ} (hp : p.Program) {m m' : ℕ → ℝ} (h : ∀ a ∈ (p.valCells ∪ p.constCells) \ p.placeCells, m a = m' a) :
    ∀ k < p.size, p.result m k = p.result m' k := by
  intro k hk
  obtain ⟨f1, -, -⟩ := flat_spec p hp.tree
  rw [result_tree p hp.tree hp.nonempty, result_tree p hp.tree hp.nonempty]
  exact resultL_congr (fun x hx => (f1 x hx).1) hp.order (agree_flat hp h) k (by rw [sizeR_flat hp.tree hp.nonempty]; exact hk)

/-! ### Regularity depends on the variables only -/

variable {E : Type} [NormedAddCommGroup E] [NormedSpace ℝ E]

theorem regs_iff {es : Exprs ℝ} {ρ : E → ℕ → ℝ} {x0 : E} : es.Regs ρ x0 ↔ ∀ e ∈ es.toList, e.Reg ρ x0 := by
  induction es using Exprs.rec (motive_1 := fun _ => True) with
  | nil => simp [Exprs.Regs, Exprs.toList]
  | cons e es _ ih => simp [Exprs.Regs, Exprs.toList, ih]
  | _ => trivial

theorem toMat_congr {n : ℕ} {x y : ℕ → ℝ} (h : ∀ k < n * n, x k = y k) : toMat n x = toMat n y := by
  ext i j
  exact h _ (idx_lt' i.2 j.2)

open Classical in
theorem reg_congr {ρ ρ' : E → ℕ → ℝ} {x0 : E} (e : Expr ℝ) : e.WF → (∀ x, ∀ a ∈ e.reads, ρ x a = ρ' x a) → e.Reg ρ x0 → e.Reg ρ' x0 := by
  induction e using Expr.induct with
  | var v => intros; trivial
  | const sh c => intros; trivial
  | cview sh p => intros; trivial
  | unary op e w ih =>
    intro hwf h hr
    exact ⟨ih hwf.1 h hr.1, fun k hk => by rw [← denote_congr e hwf.1 (h x0) k hk]; exact hr.2 k hk⟩
  | binary op l r w ihl ihr =>
    intro hwf h hr
    simp only [Expr.Reg] at hr ⊢
    split at hr
    · rename_i hc
      rw [if_pos hc]
      intro k hk
      filter_upwards [hr k hk] with x hx
      rw [← denote_congr _ hwf (h x) k hk, ← denote_congr _ hwf (h x0) k hk]
      exact hx
    · rename_i hc
      rw [if_neg hc]
      exact ⟨ihl hwf.1 (fun x a ha => h x a (Or.inl ha)) hr.1, ihr hwf.2.1 (fun x a ha => h x a (Or.inr ha)) hr.2.1,
        fun hd k hk => by rw [← denote_congr r hwf.2.1 (fun a ha => h x0 a (Or.inr ha)) k hk]; exact hr.2.2 hd k hk⟩
  | pow n e w ih =>
    intro hwf h hr
    exact ⟨ih hwf.1 h hr.1, fun hn k hk => by rw [← denote_congr e hwf.1 (h x0) k hk]; exact hr.2 hn k hk⟩
  | prodElem e w c ih => intro hwf h hr; exact ih hwf.1 h hr
  | transpose e w ih => intro hwf h hr; exact ih hwf.1 h hr
  | dot l r w ihl ihr =>
    intro hwf h hr
    exact ⟨ihl hwf.1 (fun x a ha => h x a (Or.inl ha)) hr.1, ihr hwf.2.1 (fun x a ha => h x a (Or.inr ha)) hr.2⟩
  | sumIter es w ih =>
    intro hwf h hr
    exact regs_iff.2 fun e he => ih e he (wfs_iff.1 hwf.1 e he) (fun x a ha => h x a (mem_readss.2 ⟨e, he, ha⟩)) (regs_iff.1 hr e he)
  | prodIter es w ih =>
    intro hwf h hr
    exact regs_iff.2 fun e he => ih e he (wfs_iff.1 hwf.1 e he) (fun x a ha => h x a (mem_readss.2 ⟨e, he, ha⟩)) (regs_iff.1 hr e he)
  | reduce op es w ih =>
    intro hwf h hr
    obtain ⟨h1, h2, h3⟩ := hr
    have hden : ∀ e ∈ es.toList, ∀ x, ∀ k < e.size, e.denote (ρ x) k = e.denote (ρ' x) k := fun e he x =>
      denote_congr e (wfs_iff.1 hwf.1 e he) fun a ha => h x a (mem_readss.2 ⟨e, he, ha⟩)
    refine ⟨regs_iff.2 fun e he => ih e he (wfs_iff.1 hwf.1 e he) (fun x a ha => h x a (mem_readss.2 ⟨e, he, ha⟩)) (regs_iff.1 h1 e he),
      fun e he => ?_, ?_⟩
    · have hd := hden e he
      have h4 := h2 e he
      obtain ⟨-, -, ⟨e', rfl, hs, -⟩ | ⟨o, k, rfl, -⟩⟩ := hwf
      · obtain rfl : e = e' := by simpa [Exprs.toList] using he
        have ht : ∀ x, trunc e.shape.size (e.denote (ρ x)) = trunc e.shape.size (e.denote (ρ' x)) := fun x => trunc_congr (hd x)
        have hm : e.shape.rows = e.shape.cols → ∀ x, toMat e.shape.rows (e.denote (ρ x)) = toMat e.shape.rows (e.denote (ρ' x)) := by
          intro hsq x
          refine toMat_congr fun k hk => hd x k ?_
          rw [Expr.size, Shape.size, ← hsq]; exact hk
        cases op with
        | sum => trivial
        | norm => trivial
        | det p =>
          have hm := hm hs.2
          cases p <;> simp only [RedOp.RegAt, ht, hm] at h4 ⊢ <;> exact h4
        | logDet p =>
          have hm := hm hs.2
          cases p <;> simp only [RedOp.RegAt, ht, hm] at h4 ⊢ <;> exact h4
        | stat o k => trivial
      · trivial
    · intro o k hok
      subst hok
      obtain ⟨-, -, ⟨e', rfl, hs, -⟩ | ⟨o', k', hok, hfit⟩⟩ := hwf
      · exact hs.elim
      · obtain ⟨rfl, rfl⟩ : o' = o ∧ k' = k := by simpa [eq_comm] using hok
        obtain ⟨n, op, hop, rfl⟩ := hfit.ops
        have hmem : ∀ s ∈ o'.slots, op s ∈ (Exprs.ofList (o'.slots.map op)).toList := fun s hs => by rw [toList_ofList]; exact List.mem_map_of_mem hs
        have hde : ∀ m : ℕ → ℝ, (Exprs.ofList (o'.slots.map op)).denotes m = o'.slots.map fun s => ((op s).shape, (op s).denote m) := by
          intro m; rw [denotes_ofList, List.map_map]; rfl
        obtain ⟨n', V, hV, hreg⟩ := h3 o' k' rfl
        have hVn : ∀ x, n = n' ∧ (opArgs o'.discrete fun s => (op s).denote (ρ x)) = V x := by
          intro x
          have h1 := hV x
          simp only [hde] at h1
          rw [statArgs_ops hop] at h1
          simpa using h1
        obtain ⟨rfl, -⟩ := hVn x0
        refine ⟨n, fun x => opArgs o'.discrete fun s => (op s).denote (ρ' x), fun x => ?_, hreg.congr fun x s hs i hi => ?_⟩
        · simp only [hde]
          rw [statArgs_ops hop]
        · rw [← (hVn x).2, opArgs_get _ _ hs, opArgs_get _ _ hs]
          exact (hden (op s) (hmem s hs) x i (by rw [Expr.size, hop.shape s hs]; exact hi)).symm
  | ifElse c x y w ihc ihx ihy =>
    intro hwf h hr
    obtain ⟨wfc, wfx, wfy, hkc, -, hsx, hsy, -⟩ := hwf
    have hc1 : c.size = 1 := wfc.shapeOk.size_scl (by simp [Shape.isScl, hkc])
    have hc : ∀ t, c.denote (ρ t) 0 = c.denote (ρ' t) 0 := fun t => denote_congr c wfc (fun a ha => h t a (Or.inl ha)) 0 (by omega)
    simp only [Expr.Reg, hc] at hr ⊢
    refine ⟨hr.1, ?_⟩
    have h2 := hr.2
    split at h2
    · rename_i hh
      rw [if_pos hh]; exact ihx wfx (fun t a ha => h t a (Or.inr (Or.inl ha))) h2
    · rename_i hh
      rw [if_neg hh]; exact ihy wfy (fun t a ha => h t a (Or.inr (Or.inr ha))) h2
  | eq => intro h; exact h.elim
  | opEq => intro h; exact h.elim
  | glue => intro h; exact h.elim
  | forEach => intro h; exact h.elim

/-- Regularity of a sequence of statements depends only on the cells of its variables and constant views other than placeholders. -/
theorem regSeq_congr {L : List (Expr ℝ)} : ∀ {ρ ρ' : E → ℕ → ℝ} {x0 : E}, (∀ x ∈ L, x.WFStmt) → L.Pairwise UsedAfter →
    (∀ x, AgreeL L (ρ x) (ρ' x)) → RegSeq L ρ x0 → RegSeq L ρ' x0 := by
  induction L with
  | nil => intros; trivial
  | cons x xs ih =>
    intro ρ ρ' x0 hwf ho hag hr
    have hx := hwf x (by simp)
    refine ⟨?_, ih (fun z hz => hwf z (by simp [hz])) (List.pairwise_cons.1 ho).2 (fun t => (hag t).step hx ho) hr.2⟩
    have hrd := fun t => (hag t).reads hx ho
    have key := reg_congr (x0 := x0) x.rhs (rhs_reads hx).1 hrd
    have hr := hr.1
    cases x with
    | eq v e w => exact key hr
    | opEq op v e w c => exact ⟨key hr.1, fun hd k hk => by rw [← denote_congr e hx.1 (hrd x0) k hk]; exact hr.2 hd k hk⟩
    | glue => exact hx.elim
    | forEach => exact hx.elim
    | _ => exact key hr

theorem reg_program_congr {p : Expr ℝ} (hp : p.Program) {ρ ρ' : E → ℕ → ℝ} {x0 : E}
    (h : ∀ x, ∀ a ∈ (p.valCells ∪ p.constCells) \ p.placeCells, ρ x a = ρ' x a) (hr : RegSeq p.flat ρ x0) : RegSeq p.flat ρ' x0 :=
  regSeq_congr (fun x hx => ((flat_spec p hp.tree).1 x hx).1) hp.order (fun x => agree_flat hp (h x)) hr

end FastAD
