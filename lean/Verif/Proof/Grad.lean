import Verif.Proof.Feval

/-!
# Properties of `grad`: dependence on the seed and support
-/

namespace FastAD

variable [HasInf ℝ] [LinAlg ℝ]

/-- seeds that agree on the first `n` coefficients (or are both absent) -/
def SeedEq (n : ℕ) : Option (ℕ → ℝ) → Option (ℕ → ℝ) → Prop
  | some f, some g => ∀ k < n, f k = g k
  | none, none => True
  | _, _ => False

omit [HasInf ℝ] [LinAlg ℝ] in
theorem SeedEq.refl (n : ℕ) (o : Option (ℕ → ℝ)) : SeedEq n o o := by
  cases o <;> simp [SeedEq]

omit [HasInf ℝ] [LinAlg ℝ] in
theorem collapse_congr {op w : Shape} {n : ℕ} {f g : ℕ → ℝ} (h : ∀ k < n, f k = g k) {N : ℕ}
    (hN : op.isScl = true ∧ w.isScl = false ∨ N ≤ n) :
    ∀ k < N, collapse op w n f k = collapse op w n g k := by
  intro k hk
  simp only [collapse]
  split
  · rw [sumN_eq, sumN_eq]
    exact Finset.sum_congr rfl fun j hj => h j (Finset.mem_range.1 hj)
  · rename_i hc
    rcases hN with hN | hN
    · simp [hN] at hc
    · exact h k (by omega)

omit [HasInf ℝ] [LinAlg ℝ] in
/-- operand sizes of a coefficient-wise operation -/
theorem operand_size {α : Type} {e : Expr α} {w : Shape} (hok : e.shape.Ok) (hwok : w.Ok)
    (hd : e.shape.isScl = true ∨ sameDims e.shape w) :
    e.shape.isScl = true ∧ w.isScl = false ∨ e.size ≤ w.size := by
  rcases hd with hs | hs
  · by_cases hw : w.isScl = true
    · right; rw [Expr.size, hok.size_scl hs, hwok.size_scl hw]
    · left; exact ⟨hs, by simpa using hw⟩
  · right; simp [Expr.size, Shape.size, hs.1, hs.2]

/-- Only the first `size` coefficients of the seed matter. -/
theorem grad_congr_both (e : Expr ℝ) :
    (∀ (m f g : ℕ → ℝ), e.NWF → (∀ k < e.size, f k = g k) → e.grad m f = e.grad m g) ∧
    (∀ (m A B : ℕ → ℝ), e.NStm → (∀ a ∈ e.defsA, A a = B a) → e.gradS m A = e.gradS m B) := by
  have list : ∀ (m : ℕ → ℝ) (es : Exprs ℝ), (∀ e ∈ es.toList, ∀ (f g : ℕ → ℝ), e.NWF → (∀ k < e.size, f k = g k) →
      e.grad m f = e.grad m g) → es.NWFs → ∀ (sd sd' : ℕ → Option (ℕ → ℝ)) (N : ℕ),
      (∀ e ∈ es.toList, e.size ≤ N) → (∀ i, SeedEq N (sd i) (sd' i)) → ∀ i a,
      es.grads m sd i a = es.grads m sd' i a := by
    intro m es
    induction es using Exprs.rec (motive_1 := fun _ => True) with
    | nil => intros; rfl
    | cons e es _ ih =>
      intro hP hwf sd sd' N hN hsd i a
      simp only [Exprs.grads]
      rw [ih (fun x hx => hP x (by simp [Exprs.toList, hx])) hwf.2 sd sd' N
        (fun x hx => hN x (by simp [Exprs.toList, hx])) hsd]
      congr 1
      have h1 := hsd i
      have hle := hN e (by simp [Exprs.toList])
      cases h : sd i <;> cases h' : sd' i <;> simp only [h, h', SeedEq] at h1
      · rfl
      · simp only
        rw [hP e (by simp [Exprs.toList]) _ _ hwf.1 fun k hk => h1 k (by omega)]
    | _ => trivial
  induction e using Expr.induct with
  | var v =>
    refine ⟨?_, fun _ _ _ h => h.elim⟩
    intro m
    intro f g _ h
    funext a
    simp only [Expr.grad]
    split
    · rename_i hh; exact h _ (by simp only [Expr.size, Expr.shape, Expr.view, View.size] at *; omega)
    · rfl
  | const | cview => exact ⟨by intros; rfl, fun _ _ _ h => h.elim⟩
  | unary op e w ih =>
    refine ⟨?_, fun _ _ _ h => h.elim⟩
    intro m
    replace ih := ih.1 m
    intro f g hwf h
    funext a
    simp only [Expr.grad]
    have hsz : e.size = w.size := by simp [Expr.size, View.size, hwf.2.1]
    rw [ih _ _ hwf.1 fun k hk => by rw [h k (by rw [hsz] at hk; exact hk)]]
  | binary op l r w ihl ihr =>
    refine ⟨?_, fun _ _ _ h => h.elim⟩
    intro m
    replace ihl := ihl.1 m
    replace ihr := ihr.1 m
    intro f g hwf h
    obtain ⟨wfl, wfr, hok, hdims, _⟩ := hwf
    funext a
    simp only [Expr.grad]
    split
    · rfl
    · refine congrArg₂ (· + ·) (congrFun (ihl _ _ wfl ?_) a) (congrFun (ihr _ _ wfr ?_) a)
      · exact collapse_congr (fun k hk => by rw [h k hk]) (operand_size wfl.shapeOk hok hdims.1)
      · exact collapse_congr (fun k hk => by rw [h k hk]) (operand_size wfr.shapeOk hok hdims.2.1)
  | pow n e w ih =>
    refine ⟨?_, fun _ _ _ h => h.elim⟩
    intro m
    replace ih := ih.1 m
    intro f g hwf h
    funext a
    simp only [Expr.grad]
    have hsz : e.size = w.size := by simp [Expr.size, View.size, hwf.2.1]
    split
    · rfl
    · split
      · rw [ih _ _ hwf.1 fun k hk => h k (by rw [hsz] at hk; exact hk)]
      · rw [ih _ _ hwf.1 fun k hk => by rw [h k (by rw [hsz] at hk; exact hk)]]
  | prodElem e w c ih =>
    refine ⟨?_, fun _ _ _ h => h.elim⟩
    intro m
    replace ih := ih.1 m
    intro f g hwf h
    funext a
    simp only [Expr.grad]
    have h0 := h 0 (by show 0 < w.shape.size; rw [hwf.2.1]; simp [Shape.scl, Shape.size])
    rw [h0]
  | transpose e w ih =>
    refine ⟨?_, fun _ _ _ h => h.elim⟩
    intro m
    replace ih := ih.1 m
    intro f g hwf h
    funext a
    simp only [Expr.grad]
    rw [ih _ _ hwf.1 fun k hk => ?_]
    simp only [transposed]
    apply h
    show _ < w.shape.size
    rw [hwf.2.2]
    have hk : k < e.shape.rows * e.shape.cols := hk
    have := idx_lt hk
    exact idx_lt' this.2 this.1
  | dot l r w ihl ihr =>
    refine ⟨?_, fun _ _ _ h => h.elim⟩
    intro m
    replace ihl := ihl.1 m
    replace ihr := ihr.1 m
    intro f g hwf h
    obtain ⟨wfl, wfr, hkl, hkr, hcr, hsh, _⟩ := hwf
    have hcols : r.shape.kind = .vec → r.shape.cols = 1 := by
      intro hk; have := wfr.shapeOk; rw [Shape.Ok, hk] at this; exact this
    have hwr : w.shape.rows = l.shape.rows ∧ w.shape.cols = r.shape.cols := by
      rw [hsh]
      cases hk : r.shape.kind
      · exact absurd hk hkr
      · simp [Shape.ofDims, hcols hk]
      · simp [Shape.ofDims]
    have h : ∀ i < l.shape.rows, ∀ j < r.shape.cols, f (i + j * l.shape.rows) = g (i + j * l.shape.rows) := by
      intro i hi j hj
      apply h
      show _ < w.shape.rows * w.shape.cols
      rw [hwr.1, hwr.2]
      exact idx_lt' hi hj
    funext a
    simp only [Expr.grad]
    rw [ihl _ (dotLSeed l.shape.rows l.shape.cols w.shape.cols (r.denote m) g) wfl fun k hk => ?_,
      ihr _ (dotRSeed l.shape.rows l.shape.cols (l.denote m) g) wfr fun k hk => ?_]
    · have hk : k < r.shape.rows * r.shape.cols := hk
      rw [← hcr] at hk
      have := idx_lt hk
      simp only [dotRSeed, sumN_eq]
      exact Finset.sum_congr rfl fun i hi => by rw [h i (Finset.mem_range.1 hi) _ this.2]
    · have hk : k < l.shape.rows * l.shape.cols := hk
      have := idx_lt hk
      simp only [dotLSeed, sumN_eq]
      exact Finset.sum_congr rfl fun j hj => by rw [h _ this.1 j (hwr.2 ▸ Finset.mem_range.1 hj)]
  | sumIter es w ih =>
    refine ⟨?_, fun _ _ _ h => h.elim⟩
    intro m
    replace ih := fun e he => (ih e he).1
    intro f g hwf h
    funext a
    simp only [Expr.grad]
    refine list m es (fun e he => ih e he m) hwf.1 _ _ w.size (fun e he => by simp [Expr.size, View.size, hwf.2.2 e he]) (fun _ => ?_) _ _
    exact h
  | prodIter es w ih =>
    refine ⟨?_, fun _ _ _ h => h.elim⟩
    intro m
    replace ih := fun e he => (ih e he).1
    intro f g hwf h
    funext a
    simp only [Expr.grad]
    refine list m es (fun e he => ih e he m) hwf.1 _ _ w.size (fun e he => by simp [Expr.size, View.size, (hwf.2.2 e he).1])
      (fun i => ?_) _ _
    intro k hk
    dsimp only
    rw [h k hk]
  | reduce op es w ih =>
    refine ⟨?_, fun _ _ _ h => h.elim⟩
    intro m
    replace ih := fun e he => (ih e he).1
    intro f g hwf h
    funext a
    have h0 := h 0 (by show 0 < w.shape.size; rw [hwf.2.1]; simp [Shape.scl, Shape.size])
    simp only [Expr.grad, h0]
  | ifElse c x y w ihc ihx ihy =>
    refine ⟨?_, fun _ _ _ h => h.elim⟩
    intro m
    replace ihc := ihc.1 m
    replace ihx := ihx.1 m
    replace ihy := ihy.1 m
    intro f g hwf h
    obtain ⟨wfc, wfx, wfy, hkc, hic, hsx, hsy, -⟩ := hwf
    funext a
    simp only [Expr.grad]
    split
    · rw [ihx _ _ wfx fun k hk => h k (by rw [Expr.size, hsx] at hk; exact hk)]
    · rw [ihy _ _ wfy fun k hk => h k (by rw [Expr.size, hsy] at hk; exact hk)]
  | eq v e w ih =>
    refine ⟨fun _ _ _ h => h.elim, fun m A B hwf h => ?_⟩
    obtain ⟨wfe, _, hsh, _⟩ := hwf
    funext a
    simp only [Expr.gradS]
    rw [ih.1 m _ _ wfe fun k hk => h _ (add_mem_rng (by rw [View.size, ← hsh]; exact hk))]
  | glue l r w ihl ihr =>
    refine ⟨fun m f g hwf h => ?_, fun m A B hwf h => ?_⟩
    · have h1 := ihr.1 (l.exec m) f g hwf.2.1 fun k hk => h k (by rw [Expr.size, ← hwf.2.2.1] at hk; exact hk)
      funext a
      simp only [Expr.grad, h1]
    · have h1 := ihr.2 (l.exec m) A B hwf.2.1 fun a ha => h a (Or.inr ha)
      have h2 := ihl.2 m (fun b => A b + r.gradS (l.exec m) A b) (fun b => B b + r.gradS (l.exec m) B b) hwf.1
        fun a ha => by rw [h1, h a (Or.inl ha)]
      funext a
      simp only [Expr.gradS]
      rw [h2, h1]
  | opEq | forEach => exact ⟨fun _ _ _ h => h.elim, fun _ _ _ h => h.elim⟩

theorem grad_congrN (m : ℕ → ℝ) (e : Expr ℝ) (f g : ℕ → ℝ) (h : e.NWF) (hfg : ∀ k < e.size, f k = g k) : e.grad m f = e.grad m g :=
  (grad_congr_both e).1 m f g h hfg

theorem gradS_congr (m : ℕ → ℝ) (e : Expr ℝ) (A B : ℕ → ℝ) (h : e.NStm) (hAB : ∀ a ∈ e.defsA, A a = B a) : e.gradS m A = e.gradS m B :=
  (grad_congr_both e).2 m A B h hAB

theorem grads_congrN (m : ℕ → ℝ) (es : Exprs ℝ) : ∀ (sd sd' : ℕ → Option (ℕ → ℝ)) (i : ℕ), es.NWFs → ∀ N : ℕ,
      (∀ e ∈ es.toList, e.size ≤ N) → (∀ i, SeedEq N (sd i) (sd' i)) → ∀ a,
      es.grads m sd i a = es.grads m sd' i a := by
  induction es using Exprs.rec (motive_1 := fun _ => True) with
  | nil => intros; rfl
  | cons e es _ ih =>
    intro sd sd' i hwf N hN hsd a
    simp only [Exprs.grads]
    rw [ih sd sd' _ hwf.2 N (fun x hx => hN x (by simp [Exprs.toList, hx])) hsd]
    congr 1
    have h1 := hsd i
    have hle := hN e (by simp [Exprs.toList])
    cases h : sd i <;> cases h' : sd' i <;> simp only [h, h', SeedEq] at h1
    · rfl
    · simp only
      rw [grad_congrN m e _ _ hwf.1 fun k hk => h1 k (by omega)]
  | _ => trivial

/-- A variable that is not mentioned receives nothing. -/
theorem grad_congr (m : ℕ → ℝ) (e : Expr ℝ) (f g : ℕ → ℝ) (h : e.WF) (hfg : ∀ k < e.size, f k = g k) : e.grad m f = e.grad m g :=
  grad_congrN m e f g h.nested hfg

theorem grads_congr (m : ℕ → ℝ) (es : Exprs ℝ) (sd sd' : ℕ → Option (ℕ → ℝ)) (i : ℕ) (h : es.WFs) (N : ℕ)
    (hN : ∀ e ∈ es.toList, e.size ≤ N) (hs : ∀ i, SeedEq N (sd i) (sd' i)) (a : ℕ) : es.grads m sd i a = es.grads m sd' i a :=
  grads_congrN m es sd sd' i h.nested N hN hs a

theorem grad_support_both (e : Expr ℝ) : (∀ (m f : ℕ → ℝ) (a : ℕ), a ∉ e.readsA → e.grad m f a = 0) ∧
    (∀ (m A : ℕ → ℝ) (a : ℕ), a ∉ e.readsA → e.gradS m A a = 0) := by
  have list : ∀ (m : ℕ → ℝ) (es : Exprs ℝ), (∀ e ∈ es.toList, ∀ (f : ℕ → ℝ) (a : ℕ), a ∉ e.readsA → e.grad m f a = 0) →
      ∀ sd i a, a ∉ es.readsAs → es.grads m sd i a = 0 := by
    intro m es
    induction es using Exprs.rec (motive_1 := fun _ => True) with
    | nil => intros; rfl
    | cons e es _ ih =>
      intro hP sd i a ha
      simp only [Exprs.grads]
      have ha : a ∉ e.readsA ∪ es.readsAs := ha
      rw [Set.mem_union, not_or] at ha
      rw [ih (fun x hx => hP x (by simp [Exprs.toList, hx])) sd _ a ha.2]
      cases sd i
      · simp
      · simp [hP e (by simp [Exprs.toList]) _ a ha.1]
    | _ => trivial
  induction e using Expr.induct with
  | var v => exact ⟨fun m f a ha => by simp only [Expr.grad]; exact if_neg ha, fun _ _ _ _ => rfl⟩
  | const | cview => exact ⟨by intros; rfl, fun _ _ _ _ => rfl⟩
  | unary op e w ih => exact ⟨fun m f a ha => ih.1 m _ a ha, fun _ _ _ _ => rfl⟩
  | binary op l r w ihl ihr =>
    refine ⟨?_, fun _ _ _ _ => rfl⟩
    intro m
    replace ihl := ihl.1 m
    replace ihr := ihr.1 m
    intro f a ha
    have ha : a ∉ l.readsA ∪ r.readsA := ha
    rw [Set.mem_union, not_or] at ha
    simp only [Expr.grad]
    split
    · rfl
    · rw [ihl _ a ha.1, ihr _ a ha.2, add_zero]
  | pow n e w ih =>
    refine ⟨?_, fun _ _ _ _ => rfl⟩
    intro m
    replace ih := ih.1 m
    intro f a ha
    have ha : a ∉ e.readsA := ha
    simp only [Expr.grad]
    split
    · exact ih _ a ha
    · split
      · exact ih _ a ha
      · exact ih _ a ha
  | prodElem e w c ih => exact ⟨fun m f a ha => ih.1 m _ a ha, fun _ _ _ _ => rfl⟩
  | transpose e w ih => exact ⟨fun m f a ha => ih.1 m _ a ha, fun _ _ _ _ => rfl⟩
  | dot l r w ihl ihr =>
    refine ⟨?_, fun _ _ _ _ => rfl⟩
    intro m
    replace ihl := ihl.1 m
    replace ihr := ihr.1 m
    intro f a ha
    have ha : a ∉ l.readsA ∪ r.readsA := ha
    rw [Set.mem_union, not_or] at ha
    simp only [Expr.grad]
    rw [ihl _ a ha.1, ihr _ a ha.2, add_zero]
  | sumIter es w ih | prodIter es w ih | reduce op es w ih =>
    refine ⟨?_, fun _ _ _ _ => rfl⟩
    intro m
    replace ih := fun e he => (ih e he).1
    intro f a ha
    exact list m es (fun e he => ih e he m) _ _ a ha
  | ifElse c x y w ihc ihx ihy =>
    refine ⟨?_, fun _ _ _ _ => rfl⟩
    intro m
    replace ihc := ihc.1 m
    replace ihx := ihx.1 m
    replace ihy := ihy.1 m
    intro f a ha
    have ha : a ∉ c.readsA ∪ (x.readsA ∪ y.readsA) := ha
    simp only [Set.mem_union, not_or] at ha
    simp only [Expr.grad]
    split
    · exact ihx _ a ha.2.1
    · exact ihy _ a ha.2.2
  | eq v e w ih => exact ⟨fun _ _ _ _ => rfl, fun m A a ha => ih.1 m _ a ha⟩
  | glue l r w ihl ihr =>
    have split : ∀ a, a ∉ (Expr.glue l r w).readsA → a ∉ l.defsA → a ∉ l.readsA ∧ a ∉ r.readsA :=
      fun a ha hd => ⟨fun h => ha (Or.inl h), fun h => ha (Or.inr ⟨h, hd⟩)⟩
    refine ⟨fun m f a ha => ?_, fun m A a ha => ?_⟩
    · simp only [Expr.grad]
      split_ifs with hd
      · rfl
      · rw [ihr.1 _ _ a (split a ha hd).2, ihl.2 _ _ a (split a ha hd).1, add_zero]
    · simp only [Expr.gradS]
      split_ifs with hd
      · rfl
      · rw [ihr.2 _ _ a (split a ha hd).2, ihl.2 _ _ a (split a ha hd).1, add_zero]
  | opEq | forEach => exact ⟨fun _ _ _ _ => rfl, fun _ _ _ _ => rfl⟩

theorem grad_support (m : ℕ → ℝ) (e : Expr ℝ) (f : ℕ → ℝ) (a : ℕ) (ha : a ∉ e.readsA) : e.grad m f a = 0 :=
  (grad_support_both e).1 m f a ha

theorem gradS_support (m : ℕ → ℝ) (e : Expr ℝ) (A : ℕ → ℝ) (a : ℕ) (ha : a ∉ e.readsA) : e.gradS m A a = 0 :=
  (grad_support_both e).2 m A a ha

theorem grads_support (m : ℕ → ℝ) (es : Exprs ℝ) : ∀ sd i a, a ∉ es.readsAs → es.grads m sd i a = 0 := by
  induction es using Exprs.rec (motive_1 := fun _ => True) with
  | nil => intros; rfl
  | cons e es _ ih =>
    intro sd i a ha
    simp only [Exprs.grads]
    have ha : a ∉ e.readsA ∪ es.readsAs := ha
    rw [Set.mem_union, not_or] at ha
    rw [ih sd _ a ha.2]
    cases sd i
    · simp
    · simp [grad_support m e _ a ha.1]
  | _ => trivial

end FastAD
