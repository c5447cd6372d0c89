import Verif.Proof.Linear
import Verif.Proof.Agree
import Verif.Spec.Inline

/-!
# Substitution for a variable: well-formedness, value and gradient
-/

namespace FastAD

variable [HasInf ℝ] [LinAlg ℝ]
set_option linter.unusedSectionVars false

noncomputable section

/-! ### Operand types of log-density nodes -/

omit [HasInf ℝ] [LinAlg ℝ] in
theorem ArgKind.const_iff {a b : ArgKind} (h : a.isConst = b.isConst) : a = .const ↔ b = .const := by
  cases a <;> cases b <;> simp [ArgKind.isConst] at h ⊢

/-- A node depends only on which of its operands are constant. -/
theorem StatOp.node_kinds (o : StatOp) {k k' : Kinds} (hx : k'.x.isConst = k.x.isConst) (ha : k'.a.isConst = k.a.isConst) (hb : k'.b.isConst = k.b.isConst) {n : ℕ}
    (hs : o.Sound k n) : o.node (α := ℝ) k' n = o.node k n := by
  cases o with
  | uniformVec sa sb =>
    simp only [StatOp.node, FastAD.uniformVec, hx, ha, hb]
    congr 1
    funext v
    by_cases hc : ((sa || sb) && k.x.isConst) = true
    · rw [if_pos hc, if_pos hc]
      simp only [Bool.and_eq_true] at hc
      have hkx : k.x = .const := by cases h : k.x <;> simp [h, ArgKind.isConst] at hc ⊢
      have mem : ∀ {a b : ArgKind}, b.isConst = a.isConst → a = .const → a.hasMemory = true ∧ b.hasMemory = true := by
        rintro a b h rfl
        cases b <;> simp [ArgKind.isConst, ArgKind.hasMemory] at h ⊢
      cases n with
      | zero => rfl
      | succ m =>
        simp only [UniformCache.updateX]
        have : ((sa || k'.a.hasMemory) && (sb || k'.b.hasMemory)) = ((sa || k.a.hasMemory) && (sb || k.b.hasMemory)) := by
          have h2 := hs.2 hkx
          cases sa <;> cases sb <;> simp at hc h2 ⊢
          · rw [(mem ha h2).1, (mem ha h2).2]
          · rw [(mem hb h2).1, (mem hb h2).2]
        rw [this]
    · rw [if_neg hc, if_neg hc]
  | normalSSS => simp only [StatOp.node, FastAD.normalSSS, hx, ha, hb]
  | normalVSS => simp only [StatOp.node, FastAD.normalVSS, hx, ha, hb]
  | normalVVS => simp only [StatOp.node, FastAD.normalVVS, hx, ha, hb]
  | normalVSV => simp only [StatOp.node, FastAD.normalVSV, hx, ha, hb]
  | normalVVV => simp only [StatOp.node, FastAD.normalVVV, hx, ha, hb]
  | normalMat => simp only [StatOp.node, FastAD.normalMat, hx, ha, hb]
  | cauchySSS => rfl
  | cauchyScl => rfl
  | cauchyVec => rfl
  | uniformSSS => simp only [StatOp.node, FastAD.uniformSSS, hx, ha, hb]
  | bernoulliSS => simp only [StatOp.node, FastAD.bernoulliSS, hx, ha, hb]
  | bernoulliVS => simp only [StatOp.node, FastAD.bernoulliVS, hx, ha, hb]
  | bernoulliVV => simp only [StatOp.node, FastAD.bernoulliVV, hx, ha, hb]
  | wishart => simp only [StatOp.node, FastAD.wishart, hx, ha, hb]

omit [HasInf ℝ] [LinAlg ℝ] in
theorem StatOp.Sound.kinds {o : StatOp} {k k' : Kinds} (hx : k'.x.isConst = k.x.isConst) (ha : k'.a.isConst = k.a.isConst) (hb : k'.b.isConst = k.b.isConst) {n : ℕ}
    (hs : o.Sound k n) : o.Sound k' n := by
  have hx := ArgKind.const_iff hx
  have ha := ArgKind.const_iff ha
  have hb := ArgKind.const_iff hb
  cases o <;> simp only [StatOp.Sound, hx, ha, hb] at hs ⊢ <;> exact hs

omit [HasInf ℝ] [LinAlg ℝ] in
theorem StatOp.keeps_kinds {o : StatOp} {k k' : Kinds} (hx : k'.x.isConst = k.x.isConst) (ha : k'.a.isConst = k.a.isConst) (hb : k'.b.isConst = k.b.isConst) (s : Slot) :
    o.keeps k' s = o.keeps k s := by
  cases o <;> cases s <;> simp only [StatOp.keeps, hx, ha, hb]

/-! ### Shapes and kinds -/

section
omit [HasInf ℝ] [LinAlg ℝ]
variable {α : Type} {w : View} {r : Expr α}

theorem subst_shape (hr : r.shape = w.shape) (e : Expr α) : (e.subst w r).shape = e.shape := by
  cases e with
  | var u =>
    simp only [Expr.subst]
    split
    · rename_i h; rw [hr, h]; rfl
    · rfl
  | _ => rfl

theorem subst_size (hr : r.shape = w.shape) (e : Expr α) : (e.subst w r).size = e.size := by
  rw [Expr.size, subst_shape hr, Expr.size]

theorem IsOp.isIf (h : r.IsOp) : r.isIf = false := by cases r <;> simp [Expr.IsOp, Expr.isIf] at h ⊢
theorem IsOp.retKind (h : r.IsOp) : r.retKind = .map := by cases r <;> simp [Expr.IsOp, Expr.retKind] at h ⊢
theorem IsOp.argKind (h : r.IsOp) : r.argKind = .node := by cases r <;> simp [Expr.IsOp, Expr.argKind] at h ⊢
theorem IsOp.isConstView (h : r.IsOp) : r.isConstView = false := by cases r <;> simp [Expr.IsOp, Expr.isConstView] at h ⊢
theorem IsOp.notConst (h : r.IsOp) : r.NotConst := by cases r <;> simp [Expr.IsOp, Expr.NotConst] at h ⊢

theorem subst_isIf (h : r.IsOp) (e : Expr α) : (e.subst w r).isIf = e.isIf := by
  cases e with
  | var u =>
    simp only [Expr.subst]
    split
    · exact IsOp.isIf h
    · rfl
  | _ => rfl

theorem subst_isConstView (h : r.IsOp) (e : Expr α) : (e.subst w r).isConstView = e.isConstView := by
  cases e with
  | var u =>
    simp only [Expr.subst]
    split
    · exact IsOp.isConstView h
    · rfl
  | _ => rfl

theorem subst_notConst (h : r.IsOp) {e : Expr α} (he : e.NotConst) : (e.subst w r).NotConst := by
  cases e with
  | var u =>
    simp only [Expr.subst]
    split
    · exact IsOp.notConst h
    · trivial
  | const => exact he
  | _ => trivial

theorem subst_argKind (h : r.IsOp) (e : Expr α) : (e.subst w r).argKind.isConst = e.argKind.isConst := by
  cases e with
  | var u =>
    simp only [Expr.subst]
    split
    · rw [IsOp.argKind h]; rfl
    · rfl
  | _ => rfl

theorem subst_retKind (h : r.IsOp) (e : Expr α) : (e.subst w r).retKind = e.retKind := by
  induction e using Expr.induct with
  | var u =>
    simp only [Expr.subst]
    split
    · exact IsOp.retKind h
    · rfl
  | ifElse c x y v _ ihx _ => exact ihx
  | _ => rfl

theorem substs_toList (es : Exprs α) : (es.substs w r).toList = es.toList.map fun e => e.subst w r := by
  induction es using Exprs.rec (motive_1 := fun _ => True) with
  | nil => rfl
  | cons e es _ ih => simp only [Exprs.substs, Exprs.toList, List.map_cons, ih]
  | _ => trivial

/-- the operand types after a substitution -/
theorem retype_kinds {o : StatOp} {k : Kinds} {es : Exprs α} (hr : r.shape = w.shape) (hop : r.IsOp) (h : o.Fits k es) :
    ∃ k', RedOp.retype (es.substs w r) (.stat o k) = .stat o k' ∧ k'.x.isConst = k.x.isConst ∧ k'.a.isConst = k.a.isConst ∧ k'.b.isConst = k.b.isConst ∧
      o.Fits k' (es.substs w r) := by
  obtain ⟨n, h1, h2, h3, h4, hv, h5⟩ := h
  have hsl : o.slots = [.x, .a] ∨ o.slots = [.x, .a, .b] := by cases o <;> simp [StatOp.slots]
  have hsh : (es.substs w r).toList.map Expr.shape = o.slots.map (o.shape n) := by
    rw [substs_toList, ← h2, List.map_map]
    exact List.map_congr_left fun e _ => subst_shape hr e
  have hif : ∀ e ∈ (es.substs w r).toList, e.isIf = false := by
    intro e he
    rw [substs_toList] at he
    obtain ⟨e', he', rfl⟩ := List.mem_map.1 he
    rw [subst_isIf hop]
    exact h4 e' he'
  have hcv : ∀ p ∈ (es.substs w r).toList.zip o.slots, p.1.isConstView = true → o.keeps k p.2 = false := by
    intro p hp
    rw [substs_toList, List.zip_map_left] at hp
    obtain ⟨p', hp', rfl⟩ := List.mem_map.1 hp
    intro hc
    exact hv p' hp' (by rw [← subst_isConstView hop (w := w)]; exact hc)
  generalize hl : es.toList = l at h3
  refine ⟨k.of ((es.substs w r).toList.map Expr.argKind), rfl, ?_⟩
  have key : ∀ k', k.of ((es.substs w r).toList.map Expr.argKind) = k' → k'.x.isConst = k.x.isConst → k'.a.isConst = k.a.isConst →
      k'.b.isConst = k.b.isConst → (es.substs w r).toList.map Expr.argKind = o.slots.map k'.get →
      (k'.x.isConst = k.x.isConst ∧ k'.a.isConst = k.a.isConst ∧ k'.b.isConst = k.b.isConst ∧ o.Fits k' (es.substs w r)) := by
    intro k' hk hx ha hb hg
    exact ⟨hx, ha, hb, n, h1, hsh, hg, hif, fun p hp hc => by rw [StatOp.keeps_kinds hx ha hb]; exact hcv p hp hc, h5.kinds hx ha hb⟩
  rw [substs_toList, hl] at key ⊢
  rcases hsl with hs | hs
  · rw [hs] at h3 key
    match l, h3 with
    | [e1, e2], h3 =>
      simp only [List.map_cons, List.map_nil, List.cons.injEq, and_true, Kinds.get] at h3
      refine key _ rfl ?_ ?_ ?_ ?_
      · simp only [List.map_cons, List.map_nil, Kinds.of]; rw [subst_argKind hop, h3.1]
      · simp only [List.map_cons, List.map_nil, Kinds.of]; rw [subst_argKind hop, h3.2]
      · rfl
      · rfl
    | [], h3 => simp at h3
    | [_], h3 => simp at h3
    | _ :: _ :: _ :: _, h3 => simp at h3
  · rw [hs] at h3 key
    match l, h3 with
    | [e1, e2, e3], h3 =>
      simp only [List.map_cons, List.map_nil, List.cons.injEq, and_true, Kinds.get] at h3
      refine key _ rfl ?_ ?_ ?_ ?_
      · simp only [List.map_cons, List.map_nil, Kinds.of]; rw [subst_argKind hop, h3.1]
      · simp only [List.map_cons, List.map_nil, Kinds.of]; rw [subst_argKind hop, h3.2.1]
      · simp only [List.map_cons, List.map_nil, Kinds.of]; rw [subst_argKind hop, h3.2.2]
      · rfl
    | [], h3 => simp at h3
    | [_], h3 => simp at h3
    | [_, _], h3 => simp at h3
    | _ :: _ :: _ :: _ :: _, h3 => simp at h3

theorem retype_usesX (es : Exprs α) (op : RedOp) (sh : Shape) (h : op.ShapeOk sh) : op.retype es = op := by
  cases op <;> first | rfl | exact h.elim

/-- Substituting a well-formed operation of the same shape for a variable gives a well-formed expression. -/
theorem subst_wf (hr : r.shape = w.shape) (hop : r.IsOp) (hwf : r.WF) (e : Expr α) : e.WF → (e.subst w r).WF := by
  induction e using Expr.induct with
  | var u =>
    intro h
    simp only [Expr.subst]
    split
    · exact hwf
    · exact h
  | const => exact id
  | cview => exact id
  | unary op e v ih =>
    rintro ⟨h1, h2, h3⟩
    exact ⟨ih h1, by rw [subst_shape hr]; exact h2, by rw [subst_isIf hop, subst_shape hr]; exact h3⟩
  | binary op a b v iha ihb =>
    rintro ⟨h1, h2, h3, h4, h5⟩
    refine ⟨iha h1, ihb h2, h3, ?_, ?_⟩
    · rw [subst_shape hr, subst_shape hr]; exact h4
    · rw [subst_isIf hop, subst_isIf hop, subst_shape hr, subst_shape hr]; exact h5
  | pow n e v ih =>
    rintro ⟨h1, h2, h3⟩
    exact ⟨ih h1, by rw [subst_shape hr]; exact h2, by rw [subst_isIf hop]; exact h3⟩
  | prodElem e v c ih =>
    rintro ⟨h1, h2, h3⟩
    exact ⟨ih h1, h2, by rw [subst_isIf hop]; exact h3⟩
  | transpose e v ih =>
    rintro ⟨h1, h2, h3⟩
    exact ⟨ih h1, by rw [subst_shape hr]; exact h2, by rw [subst_shape hr]; exact h3⟩
  | dot a b v iha ihb =>
    rintro ⟨h1, h2, h3, h4, h5, h6, h7, h8⟩
    refine ⟨iha h1, ihb h2, ?_⟩
    rw [subst_shape hr, subst_shape hr, subst_isIf hop, subst_isIf hop]
    exact ⟨h3, h4, h5, h6, h7, h8⟩
  | sumIter es v ih =>
    rintro ⟨h1, h2, h3⟩
    refine ⟨wfs_iff.2 fun e he => ?_, h2, fun e he => ?_⟩ <;> rw [substs_toList] at he <;> obtain ⟨e', he', rfl⟩ := List.mem_map.1 he
    · exact ih e' he' (wfs_iff.1 h1 e' he')
    · rw [subst_shape hr]; exact h3 e' he'
  | prodIter es v ih =>
    rintro ⟨h1, h2, h3⟩
    refine ⟨wfs_iff.2 fun e he => ?_, h2, fun e he => ?_⟩ <;> rw [substs_toList] at he <;> obtain ⟨e', he', rfl⟩ := List.mem_map.1 he
    · exact ih e' he' (wfs_iff.1 h1 e' he')
    · rw [subst_shape hr, subst_isIf hop]; exact h3 e' he'
  | reduce op es v ih =>
    rintro ⟨h1, h2, h3⟩
    refine ⟨wfs_iff.2 fun e he => ?_, h2, ?_⟩
    · rw [substs_toList] at he
      obtain ⟨e', he', rfl⟩ := List.mem_map.1 he
      exact ih e' he' (wfs_iff.1 h1 e' he')
    · rcases h3 with ⟨e, rfl, h3, h4⟩ | ⟨o, k, rfl, h3⟩
      · left
        refine ⟨e.subst w r, rfl, ?_⟩
        rw [retype_usesX _ op _ h3, subst_shape hr, subst_isIf hop]
        exact ⟨h3, h4⟩
      · right
        obtain ⟨k', hk, -, -, -, hf⟩ := retype_kinds hr hop h3
        exact ⟨o, k', hk, hf⟩
  | ifElse c x y v ihc ihx ihy =>
    rintro ⟨h1, h2, h3, h4, h5, h6, h7, h8⟩
    refine ⟨ihc h1, ihx h2, ihy h3, ?_⟩
    rw [subst_shape hr, subst_shape hr, subst_shape hr, subst_isIf hop, subst_retKind hop, subst_retKind hop]
    exact ⟨h4, h5, h6, h7, h8⟩
  | eq => exact id
  | opEq => exact id
  | glue => exact id
  | forEach => exact id

theorem mem_substs {es : Exprs α} {e : Expr α} (h : e ∈ (es.substs w r).toList) : ∃ e' ∈ es.toList, e = e'.subst w r := by
  rw [substs_toList] at h
  obtain ⟨e', h1, rfl⟩ := List.mem_map.1 h
  exact ⟨e', h1, rfl⟩

/-- the variables after a substitution -/
theorem subst_vars (e : Expr α) : e.WF → ∀ u ∈ (e.subst w r).vars, (u ∈ e.vars ∧ u ≠ w) ∨ u ∈ r.vars := by
  induction e using Expr.induct with
  | var v =>
    intro _ u hu
    simp only [Expr.subst] at hu
    split at hu
    · exact Or.inr hu
    · rename_i h
      obtain rfl : u = v := by simpa [Expr.vars] using hu
      exact Or.inl ⟨by simp [Expr.vars], h⟩
  | const => intro _ u hu; simp [Expr.subst, Expr.vars] at hu
  | cview => intro _ u hu; simp [Expr.subst, Expr.vars] at hu
  | unary op e v ih => intro h u hu; exact ih h.1 u hu
  | pow n e v ih => intro h u hu; exact ih h.1 u hu
  | prodElem e v c ih => intro h u hu; exact ih h.1 u hu
  | transpose e v ih => intro h u hu; exact ih h.1 u hu
  | binary op a b v iha ihb | dot a b v iha ihb =>
    intro h u hu
    rcases List.mem_append.1 hu with hu | hu
    · exact (iha h.1 u hu).imp (And.imp_left fun h => List.mem_append.2 (Or.inl h)) id
    · exact (ihb h.2.1 u hu).imp (And.imp_left fun h => List.mem_append.2 (Or.inr h)) id
  | sumIter es v ih | prodIter es v ih | reduce op es v ih =>
    intro h u hu
    obtain ⟨e, he, hu⟩ := mem_varss.1 hu
    obtain ⟨e', he', rfl⟩ := mem_substs he
    exact (ih e' he' (wfs_iff.1 h.1 e' he') u hu).imp (And.imp_left fun h => mem_varss.2 ⟨e', he', h⟩) id
  | ifElse c x y v ihc ihx ihy =>
    intro h u hu
    simp only [Expr.subst, Expr.vars, List.mem_append] at hu
    rcases hu with hu | hu | hu
    · exact (ihc h.1 u hu).imp (And.imp_left fun h => by simp [Expr.vars, h]) id
    · exact (ihx h.2.1 u hu).imp (And.imp_left fun h => by simp [Expr.vars, h]) id
    · exact (ihy h.2.2.1 u hu).imp (And.imp_left fun h => by simp [Expr.vars, h]) id
  | eq | opEq | glue | forEach => intro h; exact h.elim

theorem subst_cviews (e : Expr α) : e.WF → ∀ c ∈ (e.subst w r).cviews, c ∈ e.cviews ∨ c ∈ r.cviews := by
  induction e using Expr.induct with
  | var v =>
    intro _ u hu
    simp only [Expr.subst] at hu
    split at hu
    · exact Or.inr hu
    · simp [Expr.cviews] at hu
  | const => intro _ u hu; simp [Expr.subst, Expr.cviews] at hu
  | cview => intro _ u hu; exact Or.inl hu
  | unary op e v ih => intro h u hu; exact ih h.1 u hu
  | pow n e v ih => intro h u hu; exact ih h.1 u hu
  | prodElem e v c ih => intro h u hu; exact ih h.1 u hu
  | transpose e v ih => intro h u hu; exact ih h.1 u hu
  | binary op a b v iha ihb | dot a b v iha ihb =>
    intro h u hu
    rcases List.mem_append.1 hu with hu | hu
    · exact (iha h.1 u hu).imp (fun h => List.mem_append.2 (Or.inl h)) id
    · exact (ihb h.2.1 u hu).imp (fun h => List.mem_append.2 (Or.inr h)) id
  | sumIter es v ih | prodIter es v ih | reduce op es v ih =>
    intro h u hu
    obtain ⟨e, he, hu⟩ := mem_cviewss.1 hu
    obtain ⟨e', he', rfl⟩ := mem_substs he
    exact (ih e' he' (wfs_iff.1 h.1 e' he') u hu).imp (fun h => mem_cviewss.2 ⟨e', he', h⟩) id
  | ifElse c x y v ihc ihx ihy =>
    intro h u hu
    simp only [Expr.subst, Expr.cviews, List.mem_append] at hu
    rcases hu with hu | hu | hu
    · exact (ihc h.1 u hu).imp (fun h => by simp [Expr.cviews, h]) id
    · exact (ihx h.2.1 u hu).imp (fun h => by simp [Expr.cviews, h]) id
    · exact (ihy h.2.2.1 u hu).imp (fun h => by simp [Expr.cviews, h]) id
  | eq | opEq | glue | forEach => intro h; exact h.elim

end

/-! ### Value and gradient -/

/-- Store `m'` holds the value of `r` in `w` and otherwise agrees with `m` on what `e` mentions. -/
structure SubstStore (w : View) (r : Expr ℝ) (m m' : ℕ → ℝ) (e : Expr ℝ) : Prop where
  vars : ∀ u ∈ e.vars, u = w ∨ ∀ k < u.size, m' (addr u.val + k) = m (addr u.val + k)
  cviews : ∀ c ∈ e.cviews, ∀ k < c.1.size, m' (addr c.2 + k) = m (addr c.2 + k)
  val : ∀ k < w.size, m' (addr w.val + k) = r.denote m k

theorem SubstStore.sub {w : View} {r : Expr ℝ} {m m' : ℕ → ℝ} {e x : Expr ℝ} (h : SubstStore w r m m' e) (hv : ∀ u ∈ x.vars, u ∈ e.vars)
    (hc : ∀ c ∈ x.cviews, c ∈ e.cviews) : SubstStore w r m m' x :=
  ⟨fun u hu => h.vars u (hv u hu), fun c hx => h.cviews c (hc c hx), h.val⟩

theorem SubstStore.elem {w : View} {r : Expr ℝ} {m m' : ℕ → ℝ} {e x : Expr ℝ} {es : Exprs ℝ} (h : SubstStore w r m m' e) (hv : e.vars = es.varss)
    (hc : e.cviews = es.cviewss) (hx : x ∈ es.toList) : SubstStore w r m m' x :=
  h.sub (fun u hu => by rw [hv]; exact mem_varss.2 ⟨x, hx, hu⟩) fun c hc' => by rw [hc]; exact mem_cviewss.2 ⟨x, hx, hc'⟩

theorem SubstStore.left {w : View} {r : Expr ℝ} {m m' : ℕ → ℝ} {e x : Expr ℝ} {l : List View} {l' : List (Shape × Option ℕ)} (h : SubstStore w r m m' e)
    (hv : e.vars = x.vars ++ l) (hc : e.cviews = x.cviews ++ l') : SubstStore w r m m' x :=
  h.sub (fun u hu => by rw [hv]; exact List.mem_append.2 (Or.inl hu)) fun c hc' => by rw [hc]; exact List.mem_append.2 (Or.inl hc')

theorem SubstStore.right {w : View} {r : Expr ℝ} {m m' : ℕ → ℝ} {e x : Expr ℝ} {l : List View} {l' : List (Shape × Option ℕ)} (h : SubstStore w r m m' e)
    (hv : e.vars = l ++ x.vars) (hc : e.cviews = l' ++ x.cviews) : SubstStore w r m m' x :=
  h.sub (fun u hu => by rw [hv]; exact List.mem_append.2 (Or.inr hu)) fun c hc' => by rw [hc]; exact List.mem_append.2 (Or.inr hc')

section
variable {w : View} {r : Expr ℝ} {m m' : ℕ → ℝ}

theorem substs_trunc (hr : r.shape = w.shape) (es : Exprs ℝ) (h : ∀ e ∈ es.toList, ∀ k < e.size, (e.subst w r).denote m k = e.denote m' k) :
    (((es.substs w r).denotes m).map fun x => (x.1, trunc x.1.size x.2)) = (es.denotes m').map fun x => (x.1, trunc x.1.size x.2) := by
  induction es using Exprs.rec (motive_1 := fun _ => True) with
  | nil => rfl
  | cons e es _ ih =>
    simp only [Exprs.substs, Exprs.denotes, List.map_cons]
    rw [ih fun x hx => h x (by simp [Exprs.toList, hx]), subst_shape hr]
    congr 2
    exact trunc_congr (h e (by simp [Exprs.toList]))
  | _ => trivial

theorem substs_map {k : ℕ} (es : Exprs ℝ) (h : ∀ e ∈ es.toList, (e.subst w r).denote m k = e.denote m' k) :
    (((es.substs w r).denotes m).map fun x => x.2 k) = (es.denotes m').map fun x => x.2 k := by
  induction es using Exprs.rec (motive_1 := fun _ => True) with
  | nil => rfl
  | cons e es _ ih =>
    simp only [Exprs.substs, Exprs.denotes, List.map_cons]
    rw [ih fun x hx => h x (by simp [Exprs.toList, hx]), h e (by simp [Exprs.toList])]
  | _ => trivial

theorem denotes_length (es : Exprs ℝ) (m : ℕ → ℝ) : (es.denotes m).length = es.toList.length := by
  induction es using Exprs.rec (motive_1 := fun _ => True) with
  | nil => rfl
  | cons e es _ ih => simp [Exprs.denotes, Exprs.toList, ih]
  | _ => trivial

theorem Fits.length {o : StatOp} {k : Kinds} {es : Exprs ℝ} (h : o.Fits k es) : es.toList.length ≠ 1 := by
  obtain ⟨n, -, h, -⟩ := h
  have := congrArg List.length h
  rw [o.slots_eq] at this
  cases hd : o.discrete <;> simp [hd] at this <;> omega

theorem statArgs_fits {o : StatOp} {k : Kinds} {es : Exprs ℝ} (h : o.Fits k es) (m : ℕ → ℝ) :
    ∃ n v, statArgs ((es.denotes m).map fun x => (x.1, trunc x.1.size x.2)) = some (n, v) ∧ o.Sound k n := by
  obtain ⟨n, op, hop, rfl⟩ := h.ops
  rw [denotes_ofList, List.map_map (f := op), List.map_map]
  exact ⟨n, _, statArgs_ops hop fun s => trunc (op s).shape.size ((op s).denote m), hop.sound⟩

/-- The node computes the same whether an operand is a variable or another expression. -/
theorem retype_maps (hr : r.shape = w.shape) (hop : r.IsOp) {op : RedOp} {es : Exprs ℝ} {v : View} (hwf : (Expr.reduce op es v).WF) (m : ℕ → ℝ) :
    (op.retype (es.substs w r)).fmap ((es.denotes m).map fun x => (x.1, trunc x.1.size x.2)) =
      op.fmap ((es.denotes m).map fun x => (x.1, trunc x.1.size x.2)) ∧
    ∀ seed f i, (op.retype (es.substs w r)).bmap seed ((es.denotes m).map fun x => (x.1, trunc x.1.size x.2)) f i =
      op.bmap seed ((es.denotes m).map fun x => (x.1, trunc x.1.size x.2)) f i := by
  obtain ⟨-, -, ⟨e, rfl, h3, h4⟩ | ⟨o, k, rfl, h3⟩⟩ := hwf
  · rw [retype_usesX _ op _ h3]; exact ⟨rfl, fun _ _ _ => rfl⟩
  · obtain ⟨k', hk, hx, ha, hb, -⟩ := retype_kinds hr hop h3
    obtain ⟨n, v, hv, hs⟩ := statArgs_fits h3 m
    have hl : ((es.denotes m).map fun x => (x.1, trunc x.1.size x.2)).length ≠ 1 := by
      rw [List.length_map, denotes_length]; exact Fits.length h3
    rw [hk]
    refine ⟨?_, fun seed f i => ?_⟩
    · rw [fmap_stat _ hl, fmap_stat _ hl, StatOp.fmap, StatOp.fmap, hv]
      simp only [Option.bind_eq_bind, Option.bind_some]
      rw [o.node_kinds hx ha hb hs]
    · rw [bmap_stat _ hl, bmap_stat _ hl, StatOp.bmap, StatOp.bmap, hv]
      simp only [Option.bind_eq_bind, Option.bind_some]
      rw [o.node_kinds hx ha hb hs]

/-- which operand of a binary operation is read at coefficient `k` -/
theorem inl_bidx_lt {x : Expr ℝ} {s : Shape} (hx : x.WF) (hd : x.shape.isScl = true ∨ sameDims x.shape s) {k : ℕ} (hk : k < s.size) :
    (if x.shape.isScl = true then 0 else k) < x.size := by
  split
  · rename_i hs; rw [Expr.size, hx.shapeOk.size_scl hs]; exact Nat.one_pos
  · rename_i hs
    have := hd.resolve_left hs
    have hk : k < s.rows * s.cols := hk
    rw [← this.1, ← this.2] at hk
    exact hk

theorem dot_size {l x : Expr ℝ} {v : View} (h : (Expr.dot l x v).WF) : v.size = l.shape.rows * x.shape.cols ∧ v.shape.cols = x.shape.cols := by
  obtain ⟨wfl, wfr, hkl, hkr, hcr, hsh, -⟩ := h
  have hcols : x.shape.kind = .vec → x.shape.cols = 1 := by
    intro hk; have := wfr.shapeOk; rw [Shape.Ok, hk] at this; exact this
  rw [View.size, hsh]
  cases hk : x.shape.kind
  · exact absurd hk hkr
  · simp [Shape.ofDims, Shape.size, hcols hk]
  · simp [Shape.ofDims, Shape.size]

theorem subst_denote (hr : r.shape = w.shape) (hop : r.IsOp) (hwr : r.WF) (e : Expr ℝ) : e.WF → SubstStore w r m m' e →
    ∀ k < e.size, (e.subst w r).denote m k = e.denote m' k := by
  induction e using Expr.induct with
  | var u =>
    intro _ h k hk
    simp only [Expr.subst]
    split
    · rename_i hu
      subst hu
      exact (h.val k hk).symm
    · rename_i hu
      rcases h.vars u (by simp [Expr.vars]) with h | h
      · exact absurd h hu
      · exact (h k hk).symm
  | const sh c => intros; rfl
  | cview sh p => intro _ h k hk; exact (h.cviews (sh, p) (by simp [Expr.cviews]) k hk).symm
  | unary op e v ih =>
    intro hwf h k hk
    simp only [Expr.subst, Expr.denote]
    rw [ih hwf.1 ⟨h.vars, h.cviews, h.val⟩ k (by have : (Expr.unary op e v).size = e.size := by simp [Expr.size, Expr.shape, Expr.view, hwf.2.1]
                                                 omega)]
  | binary op a b v iha ihb =>
    intro hwf h k hk
    obtain ⟨wfl, wfr, hok, hd, -⟩ := hwf
    simp only [Expr.subst, Expr.denote, subst_shape hr]
    rw [iha wfl (h.left rfl rfl) _ (inl_bidx_lt wfl hd.1 hk), ihb wfr (h.right rfl rfl) _ (inl_bidx_lt wfr hd.2.1 hk)]
  | pow n e v ih =>
    intro hwf h k hk
    simp only [Expr.subst, Expr.denote]
    rw [ih hwf.1 ⟨h.vars, h.cviews, h.val⟩ k (by have : (Expr.pow n e v).size = e.size := by simp [Expr.size, Expr.shape, Expr.view, hwf.2.1]
                                                 omega)]
  | prodElem e v c ih =>
    intro hwf h k hk
    simp only [Expr.subst, Expr.denote, subst_size hr]
    exact Finset.prod_congr rfl fun j hj => ih hwf.1 ⟨h.vars, h.cviews, h.val⟩ j (Finset.mem_range.1 hj)
  | transpose e v ih =>
    intro hwf h k hk
    obtain ⟨wfe, -, hsh⟩ := hwf
    simp only [Expr.subst, Expr.denote]
    refine ih wfe ⟨h.vars, h.cviews, h.val⟩ _ ?_
    have hk : k < v.shape.rows * v.shape.cols := hk
    show _ < e.shape.rows * e.shape.cols
    rw [hsh, Shape.mat] at hk ⊢
    have := idx_lt hk
    exact idx_lt' this.2 this.1
  | dot a b v iha ihb =>
    intro hwf h k hk
    have hk : k < v.size := hk
    rw [(dot_size hwf).1] at hk
    have hi := idx_lt hk
    simp only [Expr.subst, Expr.denote, subst_shape hr]
    refine Finset.sum_congr rfl fun q hq => ?_
    have hq := Finset.mem_range.1 hq
    rw [iha hwf.1 (h.left rfl rfl) _ (idx_lt' hi.1 hq), ihb hwf.2.1 (h.right rfl rfl) _ ?_]
    show _ < b.shape.rows * b.shape.cols
    rw [← hwf.2.2.2.2.1]
    exact idx_lt' hq hi.2
  | sumIter es v ih =>
    intro hwf h k hk
    simp only [Expr.subst, Expr.denote]
    rw [substs_map es fun e he => ih e he (wfs_iff.1 hwf.1 e he) (h.elem rfl rfl he) k ?_]
    have hk : k < v.size := hk
    simpa [Expr.size, hwf.2.2 e he, View.size] using hk
  | prodIter es v ih =>
    intro hwf h k hk
    simp only [Expr.subst, Expr.denote]
    rw [substs_map es fun e he => ih e he (wfs_iff.1 hwf.1 e he) (h.elem rfl rfl he) k ?_]
    have hk : k < v.size := hk
    simpa [Expr.size, (hwf.2.2 e he).1, View.size] using hk
  | reduce op es v ih =>
    intro hwf h k hk
    have hwf' := subst_wf hr hop hwr _ hwf
    have h1 := reduce_value (show (Expr.reduce (op.retype (es.substs w r)) (es.substs w r) v).WF from hwf') m
    have h2 := reduce_value hwf m'
    rw [substs_trunc hr es fun e he => ih e he (wfs_iff.1 hwf.1 e he) (h.elem rfl rfl he)] at h1
    rw [(retype_maps hr hop hwf m').1, h2] at h1
    simp only [Expr.subst, Expr.denote]
    exact (Option.some.inj h1).symm
  | ifElse c x y v ihc ihx ihy =>
    intro hwf h k hk
    obtain ⟨wfc, wfx, wfy, hkc, -, hsx, hsy, -⟩ := hwf
    have hc1 : c.size = 1 := wfc.shapeOk.size_scl (by simp [Shape.isScl, hkc])
    have hk : k < v.shape.size := hk
    have h2 : SubstStore w r m m' x := h.sub (fun u hu => by simp [Expr.vars, hu]) fun u hu => by simp [Expr.cviews, hu]
    have h3 : SubstStore w r m m' y := h.sub (fun u hu => by simp [Expr.vars, hu]) fun u hu => by simp [Expr.cviews, hu]
    simp only [Expr.subst, Expr.denote]
    rw [ihc wfc (h.left rfl rfl) 0 (by omega), ihx wfx h2 k (by simpa [Expr.size, hsx] using hk), ihy wfy h3 k (by simpa [Expr.size, hsy] using hk)]
  | eq | opEq | glue | forEach => intro h; exact h.elim

/-- two seeds at once -/
theorem grad_add (hwr : r.WF) (hp : r.NoPole m) (f g : ℕ → ℝ) (a : ℕ) : r.grad m (fun k => f k + g k) a = r.grad m f a + r.grad m g a := by
  have := grad_linear m r hwr hp 1 f g a
  rw [one_mul] at this
  rw [← this]
  congr 1
  funext k
  simp [lin]

theorem grad_zero (hwr : r.WF) (hp : r.NoPole m) (a : ℕ) : r.grad m (fun _ => 0) a = 0 := (grad_linear m r).zero hwr hp a

/-- what reaches the variable `w` is passed on to `r` -/
def GradClaim (w : View) (r : Expr ℝ) (m m' : ℕ → ℝ) (e : Expr ℝ) : Prop :=
  e.WF → SubstStore w r m m' e → (∀ u ∈ e.vars, u = w ∨ ∀ j < u.size, ∀ k < w.size, addr u.adj + j ≠ addr w.adj + k) →
    ∀ (seed : ℕ → ℝ) (a : ℕ), a ∉ rng w.adj w.size →
      (e.subst w r).grad m seed a = e.grad m' seed a + r.grad m (fun k => e.grad m' seed (addr w.adj + k)) a

theorem substs_grads (hwr : r.WF) (hp : r.NoPole m) (es : Exprs ℝ) (h : ∀ e ∈ es.toList, ∀ (seed : ℕ → ℝ) (a : ℕ), a ∉ rng w.adj w.size →
      (e.subst w r).grad m seed a = e.grad m' seed a + r.grad m (fun k => e.grad m' seed (addr w.adj + k)) a) (sd : ℕ → Option (ℕ → ℝ)) :
    ∀ i a, a ∉ rng w.adj w.size → (es.substs w r).grads m sd i a = es.grads m' sd i a + r.grad m (fun k => es.grads m' sd i (addr w.adj + k)) a := by
  induction es using Exprs.rec (motive_1 := fun _ => True) with
  | nil => intro i a ha; simp only [Exprs.substs, Exprs.grads]; rw [grad_zero hwr hp]; simp
  | cons e es _ ih =>
    intro i a ha
    simp only [Exprs.substs, Exprs.grads]
    rw [grad_add hwr hp, ih (fun x hx => h x (by simp [Exprs.toList, hx])) _ a ha]
    cases sd i with
    | none => simp only [grad_zero hwr hp]; ring
    | some g => simp only [h e (by simp [Exprs.toList]) g a ha]; ring
  | _ => trivial

theorem bcast_subst (hr : r.shape = w.shape) {x : Expr ℝ} {s : Shape} (hx : x.WF) (hd : x.shape.isScl = true ∨ sameDims x.shape s)
    (h : ∀ k < x.size, (x.subst w r).denote m k = x.denote m' k) {k : ℕ} (hk : k < s.size) :
    bcast (x.subst w r).shape ((x.subst w r).denote m) k = bcast x.shape (x.denote m') k := by
  simp only [bcast, Shape.bidx, subst_shape hr]
  exact h _ (inl_bidx_lt hx hd hk)

theorem prodOthers_subst {k i : ℕ} (es : Exprs ℝ) (h : ∀ e ∈ es.toList, (e.subst w r).denote m k = e.denote m' k) :
    prodOthers ((es.substs w r).denotes m) i k = prodOthers (es.denotes m') i k := by
  simp only [prodOthers]
  rw [← List.eraseIdx_map, ← List.eraseIdx_map, substs_map es h]

theorem subst_grad (hr : r.shape = w.shape) (hop : r.IsOp) (hwr : r.WF) (hp : r.NoPole m) (e : Expr ℝ) : GradClaim w r m m' e := by
  induction e using Expr.induct with
  | var u =>
    intro hwf h hs seed a ha
    simp only [Expr.subst]
    split
    · rename_i hu
      subst hu
      simp only [Expr.grad]
      rw [if_neg (by simpa only [mem_rng] using ha), zero_add]
      refine congrFun (grad_congr m r _ _ hwr fun k hk => ?_) a
      have hk : k < u.size := by rw [View.size, ← hr]; exact hk
      rw [if_pos ⟨by omega, by omega⟩, Nat.add_sub_cancel_left]
    · rename_i hu
      have hs := (hs u (by simp [Expr.vars])).resolve_left hu
      have : r.grad m (fun k => (Expr.var u).grad m' seed (addr w.adj + k)) a = r.grad m (fun _ => 0) a := by
        refine congrFun (grad_congr m r _ _ hwr fun k hk => ?_) a
        have hk : k < w.size := by rw [View.size, ← hr]; exact hk
        simp only [Expr.grad]
        refine if_neg fun hc => ?_
        exact hs (addr w.adj + k - addr u.adj) (by omega) k hk (by omega)
      rw [this, grad_zero hwr hp, add_zero]
      rfl
  | const sh c => intro _ _ _ seed a _; simp only [Expr.subst, Expr.grad]; rw [grad_zero hwr hp, add_zero]
  | cview sh p => intro _ _ _ seed a _; simp only [Expr.subst, Expr.grad]; rw [grad_zero hwr hp, add_zero]
  | unary op e v ih =>
    intro hwf h hs seed a ha
    have hst : SubstStore w r m m' e := ⟨h.vars, h.cviews, h.val⟩
    have hd := subst_denote hr hop hwr e hwf.1 hst
    simp only [Expr.subst, Expr.grad]
    rw [← ih hwf.1 hst hs _ a ha]
    refine congrFun (grad_congr m _ _ _ (subst_wf hr hop hwr e hwf.1) fun k hk => ?_) a
    rw [subst_size hr] at hk
    simp only [Expr.denote]
    rw [hd k hk]
  | binary op x y v ihx ihy =>
    intro hwf h hs seed a ha
    have hd := subst_denote hr hop hwr _ hwf h
    obtain ⟨wfx, wfy, hok, hdims, -⟩ := hwf
    have hx : SubstStore w r m m' x := h.left rfl rfl
    have hy : SubstStore w r m m' y := h.right rfl rfl
    have hdx := subst_denote hr hop hwr x wfx hx
    have hdy := subst_denote hr hop hwr y wfy hy
    simp only [Expr.subst, Expr.grad] at hd ⊢
    by_cases hc : op.isComparison = true
    · simp only [hc, if_true]
      rw [grad_zero hwr hp, add_zero]
    · simp only [hc, Bool.false_eq_true, if_false]
      rw [grad_add hwr hp]
      have e1 := ihx wfx hx (fun u hu => hs u (List.mem_append.2 (Or.inl hu))) (collapse x.shape v.shape v.size fun k =>
        op.bl (seed k) (bcast x.shape (x.denote m') k) (bcast y.shape (y.denote m') k) ((Expr.binary op x y v).denote m' k)) a ha
      have e2 := ihy wfy hy (fun u hu => hs u (List.mem_append.2 (Or.inr hu))) (collapse y.shape v.shape v.size fun k =>
        op.br (seed k) (bcast x.shape (x.denote m') k) (bcast y.shape (y.denote m') k) ((Expr.binary op x y v).denote m' k)) a ha
      have e3 : ∀ a b c d : ℝ, a + b + (c + d) = (a + c) + (b + d) := fun a b c d => by ring
      rw [e3, ← e1, ← e2]
      congr 1
      · refine congrFun (grad_congr m _ _ _ (subst_wf hr hop hwr x wfx) ?_) a
        rw [subst_size hr, subst_shape hr]
        refine collapse_congr (fun k hk => ?_) (operand_size wfx.shapeOk hok hdims.1)
        have b1 := bcast_subst hr wfx hdims.1 hdx hk
        have b2 := bcast_subst hr wfy hdims.2.1 hdy hk
        rw [subst_shape hr] at b1
        rw [b1, b2, hd k hk]
      · refine congrFun (grad_congr m _ _ _ (subst_wf hr hop hwr y wfy) ?_) a
        rw [subst_size hr, subst_shape hr (e := y)]
        refine collapse_congr (fun k hk => ?_) (operand_size wfy.shapeOk hok hdims.2.1)
        have b1 := bcast_subst hr wfx hdims.1 hdx hk
        have b2 := bcast_subst hr wfy hdims.2.1 hdy hk
        rw [subst_shape hr (e := y)] at b2
        rw [b1, b2, hd k hk]
  | pow n e v ih =>
    intro hwf h hs seed a ha
    have hst : SubstStore w r m m' e := ⟨h.vars, h.cviews, h.val⟩
    have hd := subst_denote hr hop hwr e hwf.1 hst
    simp only [Expr.subst, Expr.grad]
    by_cases h0 : n = 0
    · simp only [h0, if_true]
      exact ih hwf.1 hst hs _ a ha
    · by_cases h1 : n = 1
      · simp only [h1, if_true, one_ne_zero, if_false]
        exact ih hwf.1 hst hs _ a ha
      · simp only [h0, h1, if_false]
        rw [← ih hwf.1 hst hs _ a ha]
        refine congrFun (grad_congr m _ _ _ (subst_wf hr hop hwr e hwf.1) fun k hk => ?_) a
        rw [subst_size hr] at hk
        simp only [Expr.denote]
        rw [hd k hk]
  | prodElem e v c ih =>
    intro hwf h hs seed a ha
    have hst : SubstStore w r m m' e := ⟨h.vars, h.cviews, h.val⟩
    have hd := subst_denote hr hop hwr e hwf.1 hst
    simp only [Expr.subst, Expr.grad]
    rw [← ih hwf.1 hst hs _ a ha]
    refine congrFun (grad_congr m _ _ _ (subst_wf hr hop hwr e hwf.1) fun k hk => ?_) a
    rw [subst_size hr]
    congr 1
    exact Finset.prod_congr rfl fun i hi => hd i (Finset.mem_range.1 (Finset.mem_erase.1 hi).2)
  | transpose e v ih =>
    intro hwf h hs seed a ha
    have hst : SubstStore w r m m' e := ⟨h.vars, h.cviews, h.val⟩
    simp only [Expr.subst, Expr.grad, subst_shape hr]
    exact ih hwf.1 hst hs _ a ha
  | dot x y v ihx ihy =>
    intro hwf h hs seed a ha
    have hx : SubstStore w r m m' x := h.left rfl rfl
    have hy : SubstStore w r m m' y := h.right rfl rfl
    have hdx := subst_denote hr hop hwr x hwf.1 hx
    have hdy := subst_denote hr hop hwr y hwf.2.1 hy
    simp only [Expr.subst, Expr.grad, subst_shape hr]
    rw [grad_add hwr hp]
    have e1 := ihx hwf.1 hx (fun u hu => hs u (List.mem_append.2 (Or.inl hu))) (dotLSeed x.shape.rows x.shape.cols v.shape.cols (y.denote m') seed) a ha
    have e2 := ihy hwf.2.1 hy (fun u hu => hs u (List.mem_append.2 (Or.inr hu))) (dotRSeed x.shape.rows x.shape.cols (x.denote m') seed) a ha
    have e3 : ∀ a b c d : ℝ, a + b + (c + d) = (a + c) + (b + d) := fun a b c d => by ring
    rw [e3, ← e1, ← e2]
    have hcr := hwf.2.2.2.2.1
    congr 1
    · refine congrFun (grad_congr m _ _ _ (subst_wf hr hop hwr x hwf.1) fun k hk => ?_) a
      rw [subst_size hr] at hk
      have hk : k < x.shape.rows * x.shape.cols := hk
      have hi := idx_lt hk
      simp only [dotLSeed, sumN_eq]
      refine Finset.sum_congr rfl fun j hj => ?_
      rw [hdy _ ?_]
      show _ < y.shape.rows * y.shape.cols
      rw [← hcr]
      exact idx_lt' hi.2 (by rw [← (dot_size hwf).2]; exact Finset.mem_range.1 hj)
    · refine congrFun (grad_congr m _ _ _ (subst_wf hr hop hwr y hwf.2.1) fun k hk => ?_) a
      rw [subst_size hr] at hk
      have hk : k < y.shape.rows * y.shape.cols := hk
      rw [← hcr] at hk
      have hi := idx_lt hk
      simp only [dotRSeed, sumN_eq]
      refine Finset.sum_congr rfl fun j hj => ?_
      rw [hdx _ ?_]
      exact idx_lt' (Finset.mem_range.1 hj) hi.1
  | sumIter es v ih =>
    intro hwf h hs seed a ha
    simp only [Expr.subst, Expr.grad]
    exact substs_grads hwr hp es (fun e he => ih e he (wfs_iff.1 hwf.1 e he) (h.elem rfl rfl he) fun u hu => hs u (mem_varss.2 ⟨e, he, hu⟩)) _ 0 a ha
  | prodIter es v ih =>
    intro hwf h hs seed a ha
    have hwf' : (Expr.prodIter (es.substs w r) v).WF := subst_wf hr hop hwr _ hwf
    simp only [Expr.subst, Expr.grad]
    rw [← substs_grads hwr hp es (fun e he => ih e he (wfs_iff.1 hwf.1 e he) (h.elem rfl rfl he) fun u hu => hs u (mem_varss.2 ⟨e, he, hu⟩)) _ 0 a ha]
    refine grads_congr m _ _ _ 0 hwf'.1 v.size (fun e he => by simp [Expr.size, View.size, (hwf'.2.2 e he).1]) (fun i => ?_) a
    intro k hk
    dsimp only
    congr 1
    refine prodOthers_subst es fun e he => subst_denote hr hop hwr e (wfs_iff.1 hwf.1 e he) (h.elem rfl rfl he) k ?_
    simpa [Expr.size, (hwf.2.2 e he).1, View.size] using hk
  | reduce op es v ih =>
    intro hwf h hs seed a ha
    have hd := subst_denote hr hop hwr _ hwf h 0 (by show 0 < v.shape.size; rw [hwf.2.1]; simp [Shape.scl, Shape.size])
    simp only [Expr.subst, Expr.grad] at hd ⊢
    rw [hd, substs_trunc hr es fun e he => subst_denote hr hop hwr e (wfs_iff.1 hwf.1 e he) (h.elem rfl rfl he)]
    simp only [(retype_maps hr hop hwf m').2]
    exact substs_grads hwr hp es (fun e he => ih e he (wfs_iff.1 hwf.1 e he) (h.elem rfl rfl he) fun u hu => hs u (mem_varss.2 ⟨e, he, hu⟩)) _ 0 a ha
  | ifElse c x y v ihc ihx ihy =>
    intro hwf h hs seed a ha
    obtain ⟨wfc, wfx, wfy, hkc, -⟩ := hwf
    have hc1 : c.size = 1 := wfc.shapeOk.size_scl (by simp [Shape.isScl, hkc])
    have h2 : SubstStore w r m m' x := h.sub (fun u hu => by simp [Expr.vars, hu]) fun u hu => by simp [Expr.cviews, hu]
    have h3 : SubstStore w r m m' y := h.sub (fun u hu => by simp [Expr.vars, hu]) fun u hu => by simp [Expr.cviews, hu]
    have hdc := subst_denote hr hop hwr c wfc (h.left rfl rfl) 0 (by omega)
    simp only [Expr.subst, Expr.grad]
    rw [hdc]
    by_cases hc : c.denote m' 0 ≠ 0
    · simp only [if_pos hc]
      exact ihx wfx h2 (fun u hu => hs u (by simp [Expr.vars, hu])) seed a ha
    · simp only [if_neg hc]
      exact ihy wfy h3 (fun u hu => hs u (by simp [Expr.vars, hu])) seed a ha
  | eq | opEq | glue | forEach => intro h; exact h.elim

end

/-- The gradient depends on the store only through the variables and constant views mentioned. -/
theorem grad_store_congr {m m' : ℕ → ℝ} {e : Expr ℝ} (hwf : e.WF) (h : ∀ a ∈ e.valCells ∪ e.constCells, m' a = m a) (seed : ℕ → ℝ) (a : ℕ) :
    e.grad m' seed a = e.grad m seed a := by
  have key : ∀ μ, (∀ a ∈ e.valCells ∪ e.constCells, μ a = m a) →
      (e.subst (.null (.vec 0)) (.unary .neg (.const (.vec 0) fun _ => 0) (.null (.vec 0)))).grad m seed a = e.grad μ seed a := by
    intro μ hμ
    have := subst_grad (w := .null (.vec 0)) (r := .unary .neg (.const (.vec 0) fun _ => 0) (.null (.vec 0))) (m := m) (m' := μ) rfl trivial
      ⟨by simp [Expr.WF, Shape.Ok, Shape.vec], rfl, by simp [Expr.isIf]⟩ (by simp [Expr.NoPole]) e hwf
      ⟨fun u hu => Or.inr fun k hk => hμ _ (Finset.mem_union.2 (Or.inl (mem_valCells.2 ⟨u, hu, add_mem_rng hk⟩))),
        fun c hc k hk => hμ _ (Finset.mem_union.2 (Or.inr (mem_constCells.2 ⟨c, hc, add_mem_rng hk⟩))), fun k hk => by simp [View.size, View.null, Shape.vec, Shape.size] at hk⟩
      (fun u hu => Or.inr fun j hj k hk => by simp [View.size, View.null, Shape.vec, Shape.size] at hk) seed a
      (by simp [mem_rng, View.size, View.null, Shape.vec, Shape.size])
    rw [this]
    simp [Expr.grad]
  rw [← key m' h, ← key m fun _ _ => rfl]

/-! ### Programs of placeholders -/

/-- the statements `w₁ = r₁, …, wₙ = rₙ, e` -/
def placed (ss : List (View × Expr ℝ)) (e : Expr ℝ) : List (Expr ℝ) := ss.map (fun x => .mkEq x.1 x.2) ++ [e]

theorem placed_ne (ss : List (View × Expr ℝ)) (e : Expr ℝ) : (placed ss e).isEmpty = false := by cases ss <;> rfl

theorem mem_placed {ss : List (View × Expr ℝ)} {e : Expr ℝ} {x : View × Expr ℝ} (h : x ∈ ss) : Expr.mkEq x.1 x.2 ∈ placed ss e :=
  List.mem_append.2 (Or.inl (List.mem_map.2 ⟨x, h, rfl⟩))

/-- what the theorem about inlining assumes -/
structure Inl (ss : List (View × Expr ℝ)) (e : Expr ℝ) : Prop where
  wf : e.WF
  stmt : ∀ x ∈ ss, (Expr.mkEq x.1 x.2).WFStmt
  op : ∀ x ∈ ss, x.2.IsOp
  order : (placed ss e).Pairwise UsedAfter
  sep : ∀ x ∈ ss, ∀ y ∈ placed ss e, y.Separates x.1

theorem Inl.tail {x : View × Expr ℝ} {ss : List (View × Expr ℝ)} {e : Expr ℝ} (h : Inl (x :: ss) e) : Inl ss e where
  wf := h.wf
  stmt y hy := h.stmt y (by simp [hy])
  op y hy := h.op y (by simp [hy])
  order := (List.pairwise_cons.1 h.order).2
  sep y hy z hz := h.sep y (by simp [hy]) z (by simp only [placed, List.map_cons, List.cons_append, List.mem_cons]; exact Or.inr hz)

theorem Inl.inline_wf {ss : List (View × Expr ℝ)} {e : Expr ℝ} (h : Inl ss e) : (inline ss e).WF := by
  induction ss with
  | nil => exact h.wf
  | cons x ss ih =>
    have h1 := h.stmt x (by simp)
    exact subst_wf h1.2.2.1 (h.op x (by simp)) h1.1 _ (ih h.tail)

theorem Inl.shape {ss : List (View × Expr ℝ)} {e : Expr ℝ} (h : Inl ss e) : (inline ss e).shape = e.shape := by
  induction ss with
  | nil => rfl
  | cons x ss ih =>
    have h1 := h.stmt x (by simp)
    exact (subst_shape h1.2.2.1 _).trans (ih h.tail)

theorem Inl.isIf {ss : List (View × Expr ℝ)} {e : Expr ℝ} (h : Inl ss e) : (inline ss e).isIf = e.isIf := by
  induction ss with
  | nil => rfl
  | cons x ss ih => exact (subst_isIf (h.op x (by simp)) _).trans (ih h.tail)

theorem Inl.notConst {ss : List (View × Expr ℝ)} {e : Expr ℝ} (h : Inl ss e) (he : e.NotConst) : (inline ss e).NotConst := by
  induction ss with
  | nil => exact he
  | cons x ss ih => exact subst_notConst (h.op x (by simp)) (ih h.tail)

/-- the inlined expression mentions what the statements mention, except the placeholders -/
theorem Inl.vars {ss : List (View × Expr ℝ)} {e : Expr ℝ} (h : Inl ss e) :
    (∀ u ∈ (inline ss e).vars, ∃ y ∈ placed ss e, u ∈ y.vars ∧ ∀ x ∈ ss, u.Apart x.1) ∧ ∀ c ∈ (inline ss e).cviews, ∃ y ∈ placed ss e, c ∈ y.cviews := by
  induction ss with
  | nil => exact ⟨fun u hu => ⟨e, by simp [placed], hu, by simp⟩, fun c hc => ⟨e, by simp [placed], hc⟩⟩
  | cons x ss ih =>
    obtain ⟨ih1, ih2⟩ := ih h.tail
    obtain ⟨w, r⟩ := x
    have hst : (Expr.mkEq w r).WFStmt := h.stmt (w, r) (by simp)
    have hord := List.pairwise_cons.1 h.order
    have hmem : ∀ {y}, y ∈ placed ss e → y ∈ placed ((w, r) :: ss) e := fun hy => by
      simp only [placed, List.map_cons, List.cons_append, List.mem_cons]; exact Or.inr hy
    have hmr : Expr.mkEq w r ∈ placed ((w, r) :: ss) e := by simp [placed]
    refine ⟨fun u hu => ?_, fun c hc => ?_⟩
    · rcases subst_vars (inline ss e) h.tail.inline_wf u hu with ⟨hu, hne⟩ | hu
      · obtain ⟨y, hy, huy, hap⟩ := ih1 u hu
        refine ⟨y, hmem hy, huy, fun z hz => ?_⟩
        rcases List.mem_cons.1 hz with rfl | hz
        · exact ((h.sep (w, r) (by simp) y (hmem hy)).1 u huy).resolve_left hne
        · exact hap z hz
      · refine ⟨_, hmr, by simp [Expr.mkEq, Expr.vars, hu], fun z hz => ?_⟩
        intro j hj k hk
        rcases List.mem_cons.1 hz with rfl | hz
        · have := hst.2.2.2.2.2 k hk
          exact ⟨fun hc => this.1 (mem_valCells.2 ⟨u, hu, hc ▸ add_mem_rng hj⟩), fun hc => this.2.2 (mem_adjCells.2 ⟨u, hu, hc ▸ add_mem_rng hj⟩)⟩
        · have := hord.1 (.mkEq z.1 z.2) (mem_placed hz) z.1 rfl k hk
          have hu' : u ∈ (Expr.mkEq w r).vars := by simp [Expr.mkEq, Expr.vars, hu]
          exact ⟨fun hc => this.1 (mem_valCells.2 ⟨u, hu', hc ▸ add_mem_rng hj⟩), fun hc => this.2.2 (mem_adjCells.2 ⟨u, hu', hc ▸ add_mem_rng hj⟩)⟩
    · rcases subst_cviews (inline ss e) h.tail.inline_wf c hc with hc | hc
      · obtain ⟨y, hy, hcy⟩ := ih2 c hc
        exact ⟨y, hmem hy, hcy⟩
      · exact ⟨_, hmr, hc⟩

/-- **Inlining.** The statements `w₁ = r₁, …, wₙ = rₙ, e` have the value of the inlined expression, and if the adjoints of the placeholders start at zero, the
backward pass adds to all other adjoints what that of the inlined expression adds. -/
theorem Inl.main {ss : List (View × Expr ℝ)} {e : Expr ℝ} (h : Inl ss e) : ∀ m : ℕ → ℝ, NoPoleL ss m →
    (∀ k < e.size, resultL (placed ss e) m k = (inline ss e).denote m k) ∧
    ∀ seed A, (∀ x ∈ ss, ∀ k < x.1.size, A (addr x.1.adj + k) = 0) → ∀ a, (∀ x ∈ ss, a ∉ rng x.1.adj x.1.size) →
      backL (placed ss e) m seed A a = A a + (inline ss e).grad m seed a := by
  induction ss with
  | nil =>
    intro m _
    refine ⟨fun k _ => congrFun (h.wf.result m) k, fun seed A _ a _ => ?_⟩
    simp only [placed, List.map_nil, List.nil_append, backL, List.isEmpty_nil, if_true, inline]
    have := h.wf
    cases e <;> first | rfl | exact this.elim
  | cons x ss ih =>
    obtain ⟨w, r⟩ := x
    intro m hp
    obtain ⟨hp1, hp2⟩ := hp
    have hst : (Expr.mkEq w r).WFStmt := h.stmt (w, r) (by simp)
    have hop : r.IsOp := h.op (w, r) (by simp)
    have hsh : r.shape = w.shape := hst.2.2.1
    have hord := List.pairwise_cons.1 h.order
    obtain ⟨ih1, ih2⟩ := ih h.tail (assign m w (r.denote m)) hp2
    have hmem : ∀ {y}, y ∈ placed ss e → y ∈ placed ((w, r) :: ss) e := fun hy => by
      simp only [placed, List.map_cons, List.cons_append, List.mem_cons]; exact Or.inr hy
    have hv := h.tail.vars
    have hstore : SubstStore w r m (assign m w (r.denote m)) (inline ss e) := by
      refine ⟨fun u hu => ?_, fun c hc k hk => ?_, fun k hk => assign_add hk⟩
      · obtain ⟨y, hy, huy, -⟩ := hv.1 u hu
        refine ((h.sep (w, r) (by simp) y (hmem hy)).1 u huy).imp id fun hap k hk => assign_off fun hc => ?_
        obtain ⟨j, hj, hc⟩ := mem_rng_iff.1 hc
        exact (hap k hk j hj).1 hc
      · obtain ⟨y, hy, hcy⟩ := hv.2 c hc
        refine assign_off fun hc => ?_
        obtain ⟨j, hj, hc⟩ := mem_rng_iff.1 hc
        exact (h.sep (w, r) (by simp) y (hmem hy)).2 c hcy k hk j hj hc
    have hcons : placed ((w, r) :: ss) e = .mkEq w r :: placed ss e := rfl
    refine ⟨fun k hk => ?_, fun seed A hA a ha => ?_⟩
    · have h2 : resultL (placed ((w, r) :: ss) e) m = resultL (placed ss e) (assign m w (r.denote m)) := by
        rw [hcons]
        cases hps : placed ss e with
        | nil => have := placed_ne ss e; rw [hps] at this; simp at this
        | cons y ys => rfl
      rw [h2, ih1 k hk]
      exact (subst_denote hsh hop hst.1 (inline ss e) h.tail.inline_wf hstore k (by rw [Expr.size, h.tail.shape]; exact hk)).symm
    · have hA' : ∀ x ∈ ss, ∀ k < x.1.size, A (addr x.1.adj + k) = 0 := fun x hx => hA x (by simp [hx])
      have hw : ∀ k < w.size, ∀ x ∈ ss, addr w.adj + k ∉ rng x.1.adj x.1.size := by
        intro k hk x hx hc
        obtain ⟨j, hj, hc⟩ := mem_rng_iff.1 hc
        have := hord.1 (.mkEq x.1 x.2) (mem_placed hx) x.1 rfl j hj
        exact this.2.2 (hc ▸ mem_adjCells.2 ⟨w, by simp [Expr.mkEq, Expr.vars], add_mem_rng hk⟩)
      have haw : a ∉ rng w.adj w.size := ha (w, r) (by simp)
      rw [hcons]
      simp only [backL, placed_ne, Bool.false_eq_true, if_false, Expr.mkEq, Expr.back]
      rw [if_neg haw, add_zero]
      simp only [Expr.exec]
      rw [ih2 seed A hA' a fun x hx => ha x (by simp [hx])]
      have h3 : r.grad m (fun k => backL (placed ss e) (assign m w (r.denote m)) seed A (addr w.adj + k) + 0) a =
          r.grad m (fun k => (inline ss e).grad (assign m w (r.denote m)) seed (addr w.adj + k)) a := by
        refine congrFun (grad_congr m r _ _ hst.1 fun k hk => ?_) a
        have hk : k < w.size := by rw [View.size, ← hsh]; exact hk
        rw [ih2 seed A hA' _ (hw k hk), hA (w, r) (by simp) k hk]
        ring
      rw [h3]
      simp only [inline]
      rw [subst_grad hsh hop hst.1 hp1 (inline ss e) h.tail.inline_wf hstore ?_ seed a haw]
      · ring
      · intro u hu
        obtain ⟨y, hy, huy, -⟩ := hv.1 u hu
        exact ((h.sep (w, r) (by simp) y (hmem hy)).1 u huy).imp id fun hap j hj k hk => (hap j hj k hk).2

end

end FastAD
