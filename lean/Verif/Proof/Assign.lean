import Verif.Spec.Assign
import Verif.Proof.Agree

/-!
# Assignment of objects: scalar expressions, and aliasing of scalar placeholders
-/

namespace FastAD

/-! ### Scalar expressions -/

section
variable {α : Type} [Zero α]

theorem view_assign {v u : View} (s : St α) (h : v.shape = u.shape) (hs : u.shape = .scl) : v.assign u s = some (s, u) := by
  obtain ⟨vs, vv, va⟩ := v
  obtain ⟨us, uv, ua⟩ := u
  simp only at h hs
  subst h; subst hs
  simp [View.assign, assignPtr, Shape.isScl, Shape.scl]

mutual
/-- the views of an expression built for renamed objects -/
theorem onVars_vars (f : View → View) : ∀ e : Expr α, (e.onVars f).vars = e.vars.map f
  | .var _ | .const _ _ | .cview _ _ => by simp [Expr.onVars, Expr.vars]
  | .unary _ e _ | .pow _ e _ | .prodElem e _ _ | .transpose e _ => by simpa only [Expr.onVars, Expr.vars] using onVars_vars f e
  | .binary _ l r _ | .dot l r _ | .glue l r _ => by simp only [Expr.onVars, Expr.vars, List.map_append, onVars_vars f l, onVars_vars f r]
  | .sumIter es _ | .prodIter es _ | .reduce _ es _ | .forEach es _ => by simpa only [Expr.onVars, Expr.vars] using onVarss_varss f es
  | .ifElse c a b _ => by simp only [Expr.onVars, Expr.vars, List.map_append, onVars_vars f c, onVars_vars f a, onVars_vars f b]
  | .eq _ e _ | .opEq _ _ e _ _ => by simp only [Expr.onVars, Expr.vars, List.map_cons, onVars_vars f e]
theorem onVarss_varss (f : View → View) : ∀ es : Exprs α, (es.onVarss f).varss = es.varss.map f
  | .nil => rfl
  | .cons e es => by simp only [Exprs.onVarss, Exprs.varss, List.map_append, onVars_vars f e, onVarss_varss f es]
end

theorem build_nodes (f : View → View) (es : List (Expr α)) (s : St α) : buildStmts f (es.map .node) s = some (s, es.map (Expr.onVars f)) := by
  induction es with
  | nil => rfl
  | cons e es ih => simp only [List.map_cons, buildStmts, ih, Option.bind_eq_bind, Option.bind_some]

/-! Null maps of arrays -/

theorem assignPtr_null {cell : ℕ → α} {ok : ℕ → Bool} {sh : Shape} {q : Option ℕ} (h : sh.isScl = false) (hs : 0 < sh.size) : assignPtr cell ok sh none q = none := by
  have : ¬ accessible ok none sh.size := fun h => by simp only [accessible] at h; omega
  simp [assignPtr, h, this]

theorem view_assign_null {v u : View} {s : St α} (hn : v.val = none) (h : v.shape.isScl = false) (hs : 0 < v.size) : v.assign u s = none := by
  unfold View.assign
  rw [hn, assignPtr_null h hs]
  simp

theorem view_assign' {v u : View} (s : St α) (hv : v.shape = .scl) (hu : u.shape = .scl) : v.assign u s = some (s, u) := view_assign s (hv.trans hu.symm) hu

theorem assigns_of {es : Exprs α} (ih : ∀ e ∈ es.toList, ∀ e' (s : St α), e.SameType e' → e.AllScl → e'.AllScl → e.assign e' s = some (s, e')) :
    ∀ (es' : Exprs α) (s : St α), es.SameTypes es' → es.AllScls → es'.AllScls → es.assigns es' s = some (s, es') := by
  induction es using Exprs.rec (motive_1 := fun _ => True) with
  | nil => intro es' s h _ _; cases es' <;> first | rfl | exact h.elim
  | cons e es _ ihs =>
    intro es' s h h1 h2
    cases es' with
    | nil => exact h.elim
    | cons e' es' =>
      simp only [Exprs.assigns]
      rw [ih e (by simp [Exprs.toList]) e' s h.1 h1.1 h2.1]
      simp only [Option.bind_eq_bind, Option.bind_some]
      rw [ihs (fun x hx => ih x (by simp [Exprs.toList, hx])) es' s h.2 h1.2 h2.2]
      rfl
  | _ => trivial

theorem scl_assign (e : Expr α) : ∀ (e' : Expr α) (s : St α), e.SameType e' → e.AllScl → e'.AllScl → e.assign e' s = some (s, e') := by
  induction e using Expr.induct with
  | var v => intro e' s h h1 h2; cases e' <;> first | exact h.elim | simp [Expr.assign, view_assign' s h1 h2]
  | const sh c => intro e' s h h1 h2; cases e' <;> first | exact h.elim | exact if_pos h
  | cview sh p => intro e' s h h1 h2; exact h1.elim
  | unary op e w ih | pow op e w ih =>
    intro e' s h h1 h2
    cases e' <;> first | exact h.elim | simp [Expr.assign, h.1, view_assign' s h1.1 h2.1, ih _ s h.2.2 h1.2 h2.2]
  | binary op l r w ihl ihr =>
    intro e' s h h1 h2
    cases e' <;> first | exact h.elim | simp [Expr.assign, h.1, view_assign' s h1.1 h2.1, ihl _ s h.2.2.1 h1.2.1 h2.2.1, ihr _ s h.2.2.2 h1.2.2 h2.2.2]
  | prodElem e w c ih =>
    intro e' s h h1 h2
    cases e' <;> first | exact h.elim | simp [Expr.assign, view_assign' s h1.1 h2.1, ih _ s h.2 h1.2.2 h2.2.2, assignPtr, h1.2.1, Shape.isScl, Shape.scl]
  | transpose e w ih => intro e' s h h1 h2; exact h1.elim
  | dot l r w _ _ => intro e' s h h1 h2; exact h1.elim
  | glue l r w ihl ihr =>
    intro e' s h h1 h2
    cases e' <;> first | exact h.elim | simp [Expr.assign, view_assign' s h1.1 h2.1, ihl _ s h.2.1 h1.2.1 h2.2.1, ihr _ s h.2.2 h1.2.2 h2.2.2]
  | sumIter es w ih | prodIter es w ih | forEach es w ih =>
    intro e' s h h1 h2
    cases e' <;> first | exact h.elim | simp [Expr.assign, view_assign' s h1.1 h2.1, assigns_of ih _ s h.2 h1.2 h2.2]
  | reduce op es w ih =>
    intro e' s h h1 h2
    cases e' <;> first | exact h.elim | simp [Expr.assign, h.1, view_assign' s h1.1 h2.1, assigns_of ih _ s h.2.2 h1.2 h2.2]
  | ifElse c a b w ihc iha ihb =>
    intro e' s h h1 h2
    cases e' <;> first | exact h.elim | simp [Expr.assign, view_assign' s h1.1 h2.1, ihc _ s h.2.1 h1.2.1 h2.2.1, iha _ s h.2.2.1 h1.2.2.1 h2.2.2.1, ihb _ s h.2.2.2 h1.2.2.2 h2.2.2.2]
  | eq v e w ih =>
    intro e' s h h1 h2
    cases e' <;> first | exact h.elim | simp [Expr.assign, view_assign' s h1.1 h2.1, view_assign' s h1.2.1 h2.2.1, ih _ s h.2.2 h1.2.2 h2.2.2]
  | opEq op v e w c ih =>
    intro e' s h h1 h2
    cases e' <;> first | exact h.elim | simp [Expr.assign, h.1, view_assign' s h1.1 h2.1, view_assign' s h1.2.1 h2.2.1, view_assign' s h1.2.2.1 h2.2.2.1, ih _ s h.2.2.2.2 h1.2.2.2 h2.2.2.2]

end

/-! ### Aliasing -/

section
variable {α : Type} {f : View → View}

theorem onVars_shape (hf : ∀ v, (f v).shape = v.shape) (e : Expr α) : (e.onVars f).shape = e.shape := by
  cases e <;> first | rfl | exact hf _

theorem onVars_size (hf : ∀ v, (f v).shape = v.shape) (e : Expr α) : (e.onVars f).size = e.size := by
  rw [Expr.size, onVars_shape hf, Expr.size]

theorem onVars_isIf (e : Expr α) : (e.onVars f).isIf = e.isIf := by cases e <;> rfl
theorem onVars_argKind (e : Expr α) : (e.onVars f).argKind = e.argKind := by cases e <;> rfl
theorem onVars_isConstView (e : Expr α) : (e.onVars f).isConstView = e.isConstView := by cases e <;> rfl
theorem onVars_retKind (e : Expr α) : (e.onVars f).retKind = e.retKind := by
  induction e using Expr.induct with
  | ifElse c x y v _ ihx _ => exact ihx
  | _ => rfl

theorem onVarss_toList (es : Exprs α) : (es.onVarss f).toList = es.toList.map fun e => e.onVars f := by
  induction es using Exprs.rec (motive_1 := fun _ => True) with
  | nil => rfl
  | cons e es _ ih => simp only [Exprs.onVarss, Exprs.toList, List.map_cons, ih]
  | _ => trivial

theorem onVars_wf (hf : ∀ v, (f v).shape = v.shape) (e : Expr α) : e.WF → (e.onVars f).WF := by
  induction e using Expr.induct with
  | var u => intro h; exact (congrArg Shape.Ok (hf u)).mpr h
  | const => exact id
  | cview => exact id
  | unary op e v ih =>
    rintro ⟨h1, h2, h3⟩
    exact ⟨ih h1, by rw [onVars_shape hf]; exact h2, by rw [onVars_isIf, onVars_shape hf]; exact h3⟩
  | binary op a b v iha ihb =>
    rintro ⟨h1, h2, h3, h4, h5⟩
    refine ⟨iha h1, ihb h2, h3, ?_, ?_⟩
    · rw [onVars_shape hf, onVars_shape hf]; exact h4
    · rw [onVars_isIf, onVars_isIf, onVars_shape hf, onVars_shape hf]; exact h5
  | pow n e v ih =>
    rintro ⟨h1, h2, h3⟩
    exact ⟨ih h1, by rw [onVars_shape hf]; exact h2, by rw [onVars_isIf]; exact h3⟩
  | prodElem e v c ih =>
    rintro ⟨h1, h2, h3⟩
    exact ⟨ih h1, h2, by rw [onVars_isIf]; exact h3⟩
  | transpose e v ih =>
    rintro ⟨h1, h2, h3⟩
    exact ⟨ih h1, by rw [onVars_shape hf]; exact h2, by rw [onVars_shape hf]; exact h3⟩
  | dot a b v iha ihb =>
    rintro ⟨h1, h2, h3, h4, h5, h6, h7, h8⟩
    refine ⟨iha h1, ihb h2, ?_⟩
    rw [onVars_shape hf, onVars_shape hf, onVars_isIf, onVars_isIf]
    exact ⟨h3, h4, h5, h6, h7, h8⟩
  | sumIter es v ih =>
    rintro ⟨h1, h2, h3⟩
    refine ⟨wfs_iff.2 fun e he => ?_, h2, fun e he => ?_⟩ <;> rw [onVarss_toList] at he <;> obtain ⟨e', he', rfl⟩ := List.mem_map.1 he
    · exact ih e' he' (wfs_iff.1 h1 e' he')
    · rw [onVars_shape hf]; exact h3 e' he'
  | prodIter es v ih =>
    rintro ⟨h1, h2, h3⟩
    refine ⟨wfs_iff.2 fun e he => ?_, h2, fun e he => ?_⟩ <;> rw [onVarss_toList] at he <;> obtain ⟨e', he', rfl⟩ := List.mem_map.1 he
    · exact ih e' he' (wfs_iff.1 h1 e' he')
    · rw [onVars_shape hf, onVars_isIf]; exact h3 e' he'
  | reduce op es v ih =>
    rintro ⟨h1, h2, h3⟩
    refine ⟨wfs_iff.2 fun e he => ?_, h2, ?_⟩
    · rw [onVarss_toList] at he
      obtain ⟨e', he', rfl⟩ := List.mem_map.1 he
      exact ih e' he' (wfs_iff.1 h1 e' he')
    · rcases h3 with ⟨e, rfl, h3, h4⟩ | ⟨o, k, rfl, n, g1, g2, g3, g4, g5, g6⟩
      · left
        refine ⟨e.onVars f, rfl, ?_⟩
        rw [onVars_shape hf, onVars_isIf]
        exact ⟨h3, h4⟩
      · right
        refine ⟨o, k, rfl, n, g1, ?_, ?_, ?_, ?_, g6⟩
        · rw [onVarss_toList, ← g2, List.map_map]; exact List.map_congr_left fun e _ => onVars_shape hf e
        · rw [onVarss_toList, ← g3, List.map_map]; exact List.map_congr_left fun e _ => onVars_argKind e
        · intro e he
          rw [onVarss_toList] at he
          obtain ⟨e', he', rfl⟩ := List.mem_map.1 he
          rw [onVars_isIf]; exact g4 e' he'
        · intro p hp
          rw [onVarss_toList, List.zip_map_left] at hp
          obtain ⟨p', hp', rfl⟩ := List.mem_map.1 hp
          intro hc
          exact g5 p' hp' (by rw [← onVars_isConstView (f := f)]; exact hc)
  | ifElse c x y v ihc ihx ihy =>
    rintro ⟨h1, h2, h3, h4, h5, h6, h7, h8⟩
    refine ⟨ihc h1, ihx h2, ihy h3, ?_⟩
    rw [onVars_shape hf, onVars_shape hf, onVars_shape hf, onVars_isIf, onVars_retKind, onVars_retKind]
    exact ⟨h4, h5, h6, h7, h8⟩
  | eq => intro h; exact h.elim
  | opEq => intro h; exact h.elim
  | glue => intro h; exact h.elim
  | forEach => intro h; exact h.elim

end

section
variable [HasInf ℝ] [LinAlg ℝ] {f : View → View} {m m' : ℕ → ℝ}

/-- The values that the objects `f v` have in `m` are those of the objects `v` in `m'`, and constant views show the same. -/
def Seen (f : View → View) (m m' : ℕ → ℝ) (e : Expr ℝ) : Prop :=
  (∀ v ∈ e.vars, ∀ k < v.size, m (addr (f v).val + k) = m' (addr v.val + k)) ∧ ∀ c ∈ e.cviews, ∀ k < c.1.size, m (addr c.2 + k) = m' (addr c.2 + k)

omit [HasInf ℝ] [LinAlg ℝ] in
theorem Seen.mono {e e' : Expr ℝ} (h : Seen f m m' e) (h1 : ∀ v ∈ e'.vars, v ∈ e.vars) (h2 : ∀ c ∈ e'.cviews, c ∈ e.cviews) : Seen f m m' e' :=
  ⟨fun v hv => h.1 v (h1 v hv), fun c hc => h.2 c (h2 c hc)⟩

theorem onVarss_map (es : Exprs ℝ) (k : ℕ) (h : ∀ e ∈ es.toList, (e.onVars f).denote m k = e.denote m' k) :
    (((es.onVarss f).denotes m).map fun x => x.2 k) = (es.denotes m').map fun x => x.2 k := by
  induction es using Exprs.rec (motive_1 := fun _ => True) with
  | nil => rfl
  | cons e es _ ih =>
    simp only [Exprs.onVarss, Exprs.denotes, List.map_cons]
    rw [ih fun x hx => h x (by simp [Exprs.toList, hx]), h e (by simp [Exprs.toList])]
  | _ => trivial

theorem onVarss_trunc (hf : ∀ v, (f v).shape = v.shape) (es : Exprs ℝ) (h : ∀ e ∈ es.toList, ∀ k < e.size, (e.onVars f).denote m k = e.denote m' k) :
    (((es.onVarss f).denotes m).map fun x => (x.1, trunc x.1.size x.2)) = (es.denotes m').map fun x => (x.1, trunc x.1.size x.2) := by
  induction es using Exprs.rec (motive_1 := fun _ => True) with
  | nil => rfl
  | cons e es _ ih =>
    simp only [Exprs.onVarss, Exprs.denotes, List.map_cons]
    rw [ih fun x hx => h x (by simp [Exprs.toList, hx]), onVars_shape hf]
    congr 2
    exact trunc_congr (h e (by simp [Exprs.toList]))
  | _ => trivial

omit [HasInf ℝ] [LinAlg ℝ] in
theorem Seen.elem {es : Exprs ℝ} {e : Expr ℝ} (he : e ∈ es.toList) {x : Expr ℝ} (h : Seen f m m' x) (h1 : x.vars = es.varss) (h2 : x.cviews = es.cviewss) : Seen f m m' e :=
  h.mono (fun v hv => by rw [h1]; exact mem_varss.2 ⟨e, he, hv⟩) (fun c hc => by rw [h2]; exact mem_cviewss.2 ⟨e, he, hc⟩)

theorem onVars_denote (hf : ∀ v, (f v).shape = v.shape) (e : Expr ℝ) : e.WF → Seen f m m' e → ∀ k < e.size, (e.onVars f).denote m k = e.denote m' k := by
  induction e using Expr.induct with
  | var v => intro _ h k hk; exact h.1 v (by simp [Expr.vars]) k hk
  | const sh c => intros; rfl
  | cview sh p => intro _ h k hk; exact h.2 (sh, p) (by simp [Expr.cviews]) k hk
  | unary op e w ih =>
    intro hwf h k hk
    simp only [Expr.denote, Expr.onVars]
    rw [ih hwf.1 h k (by have : (Expr.unary op e w).size = e.size := by simp [Expr.size, Expr.shape, Expr.view, hwf.2.1]
                         omega)]
  | binary op l r w ihl ihr =>
    intro hwf h k hk
    obtain ⟨wfl, wfr, hok, hd, -⟩ := hwf
    simp only [Expr.denote, Expr.onVars, onVars_shape hf]
    have aux : ∀ x : Expr ℝ, x.WF → (x.shape.isScl = true ∨ sameDims x.shape w.shape) → (if x.shape.isScl = true then 0 else k) < x.size := by
      intro x hx hd
      split
      · rename_i hs; rw [Expr.size, hx.shapeOk.size_scl hs]; exact Nat.one_pos
      · rename_i hs
        have := hd.resolve_left hs
        have hk : k < w.shape.rows * w.shape.cols := hk
        rw [← this.1, ← this.2] at hk
        exact hk
    rw [ihl wfl (h.mono (by simp +contextual [Expr.vars]) (by simp +contextual [Expr.cviews])) _ (aux l wfl hd.1),
      ihr wfr (h.mono (by simp +contextual [Expr.vars]) (by simp +contextual [Expr.cviews])) _ (aux r wfr hd.2.1)]
  | pow n e w ih =>
    intro hwf h k hk
    simp only [Expr.denote, Expr.onVars]
    rw [ih hwf.1 h k (by have : (Expr.pow n e w).size = e.size := by simp [Expr.size, Expr.shape, Expr.view, hwf.2.1]
                         omega)]
  | prodElem e w c ih =>
    intro hwf h k hk
    simp only [Expr.denote, Expr.onVars, onVars_size hf]
    exact Finset.prod_congr rfl fun j hj => ih hwf.1 h j (Finset.mem_range.1 hj)
  | transpose e w ih =>
    intro hwf h k hk
    obtain ⟨wfe, -, hsh⟩ := hwf
    simp only [Expr.denote, Expr.onVars, onVars_shape hf]
    refine ih wfe h _ ?_
    have hk : k < w.shape.rows * w.shape.cols := hk
    show _ < e.shape.rows * e.shape.cols
    rw [hsh, Shape.mat] at hk ⊢
    have := idx_lt hk
    exact idx_lt' this.2 this.1
  | dot l r w ihl ihr =>
    intro hwf h k hk
    obtain ⟨wfl, wfr, hkl, hkr, hcr, hsh, -⟩ := hwf
    have hcols : r.shape.kind = .vec → r.shape.cols = 1 := by
      intro hk; have := wfr.shapeOk; rw [Shape.Ok, hk] at this; exact this
    have hwsz : w.size = l.shape.rows * r.shape.cols := by
      rw [View.size, hsh]
      cases hk : r.shape.kind
      · exact absurd hk hkr
      · simp [Shape.ofDims, Shape.size, hcols hk]
      · simp [Shape.ofDims, Shape.size]
    have hk : k < w.size := hk
    rw [hwsz] at hk
    have hi := idx_lt hk
    simp only [Expr.denote, Expr.onVars, onVars_shape hf]
    refine Finset.sum_congr rfl fun q hq => ?_
    have hq := Finset.mem_range.1 hq
    rw [ihl wfl (h.mono (by simp +contextual [Expr.vars]) (by simp +contextual [Expr.cviews])) _ (idx_lt' hi.1 hq),
      ihr wfr (h.mono (by simp +contextual [Expr.vars]) (by simp +contextual [Expr.cviews])) _ ?_]
    show _ < r.shape.rows * r.shape.cols
    rw [← hcr]
    exact idx_lt' hq hi.2
  | sumIter es w ih =>
    intro hwf h k hk
    simp only [Expr.denote, Expr.onVars]
    rw [onVarss_map es k fun e he => ih e he (wfs_iff.1 hwf.1 e he) (h.elem he rfl rfl) k ?_]
    have hk : k < w.size := hk
    simpa [Expr.size, hwf.2.2 e he, View.size] using hk
  | prodIter es w ih =>
    intro hwf h k hk
    simp only [Expr.denote, Expr.onVars]
    rw [onVarss_map es k fun e he => ih e he (wfs_iff.1 hwf.1 e he) (h.elem he rfl rfl) k ?_]
    have hk : k < w.size := hk
    simpa [Expr.size, (hwf.2.2 e he).1, View.size] using hk
  | reduce op es w ih =>
    intro hwf h k hk
    have h1 := reduce_value (onVars_wf hf _ hwf) m
    have h2 := reduce_value hwf m'
    rw [onVarss_trunc hf es fun e he => ih e he (wfs_iff.1 hwf.1 e he) (h.elem he rfl rfl), h2] at h1
    simp only [Expr.denote, Expr.onVars]
    exact (Option.some.inj h1).symm
  | ifElse c x y w ihc ihx ihy =>
    intro hwf h k hk
    obtain ⟨wfc, wfx, wfy, hkc, -, hsx, hsy, -⟩ := hwf
    have hc1 : c.size = 1 := wfc.shapeOk.size_scl (by simp [Shape.isScl, hkc])
    have hk : k < w.shape.size := hk
    simp only [Expr.denote, Expr.onVars]
    rw [ihc wfc (h.mono (by simp +contextual [Expr.vars]) (by simp +contextual [Expr.cviews])) 0 (by omega),
      ihx wfx (h.mono (by simp +contextual [Expr.vars]) (by simp +contextual [Expr.cviews])) k (by simpa [Expr.size, hsx] using hk),
      ihy wfy (h.mono (by simp +contextual [Expr.vars]) (by simp +contextual [Expr.cviews])) k (by simpa [Expr.size, hsy] using hk)]
  | eq => intro h; exact h.elim
  | opEq => intro h; exact h.elim
  | glue => intro h; exact h.elim
  | forEach => intro h; exact h.elim

/-- what a statement does when objects are replaced by those they are aliases of -/
theorem onVars_stmt (hf : ∀ v, (f v).shape = v.shape) {e : Expr ℝ} (hw : e.WFStmt) (hs : Seen f m m' e) (ht : ∀ v ∈ e.target, f v = v) :
    (∀ k < e.size, (e.onVars f).result m k = e.result m' k) ∧
    ((e.target = none ∧ (e.onVars f).exec m = m ∧ e.exec m' = m') ∨
      ∃ v g g', e.target = some v ∧ (e.onVars f).exec m = assign m v g ∧ e.exec m' = assign m' v g' ∧ ∀ k < v.size, g k = g' k) := by
  have gen : e.WF → e.target = none → (∀ k < e.size, (e.onVars f).result m k = e.result m' k) ∧
    ((e.target = none ∧ (e.onVars f).exec m = m ∧ e.exec m' = m') ∨
      ∃ v g g', e.target = some v ∧ (e.onVars f).exec m = assign m v g ∧ e.exec m' = assign m' v g' ∧ ∀ k < v.size, g k = g' k) := by
    intro h hn
    rw [h.exec, h.result, (onVars_wf hf e h).exec, (onVars_wf hf e h).result]
    exact ⟨onVars_denote hf e h hs, Or.inl ⟨hn, rfl, rfl⟩⟩
  cases e with
  | eq v e w =>
    obtain ⟨we, -, hsh, hsw, -⟩ := hw
    have hfv := ht v rfl
    have hse : Seen f m m' e := hs.mono (by simp +contextual [Expr.vars]) (by simp [Expr.cviews])
    have hk : ∀ k < v.size, (e.onVars f).denote m k = e.denote m' k := fun k hk =>
      onVars_denote hf e we hse k (by rw [Expr.size, hsh]; exact hk)
    refine ⟨fun k h => hk k ?_, Or.inr ⟨v, _, _, rfl, ?_, rfl, hk⟩⟩
    · have h : k < w.shape.size := h
      rwa [hsw] at h
    · simp only [Expr.onVars, Expr.exec, hfv]
  | opEq op v e w c =>
    obtain ⟨we, hok, hsh, hsw, -⟩ := hw
    have hfv := ht v rfl
    have hse : Seen f m m' e := hs.mono (by simp +contextual [Expr.vars]) (by simp [Expr.cviews])
    have hk : ∀ k < v.size, op.real (m (addr v.val + k)) ((e.onVars f).denote m (if e.shape.isScl then 0 else k)) =
        op.real (m' (addr v.val + k)) (e.denote m' (if e.shape.isScl then 0 else k)) := by
      intro k hk
      have h1 := hs.1 v (by simp [Expr.vars]) k hk
      rw [hfv] at h1
      rw [h1, onVars_denote hf e we hse]
      split
      · rename_i h; rw [Expr.size, we.shapeOk.size_scl h]; exact Nat.one_pos
      · rename_i h; rw [Expr.size, hsh.resolve_left h]; exact hk
    refine ⟨fun k h => ?_, Or.inr ⟨v, _, _, rfl, ?_, rfl, hk⟩⟩
    · simp only [Expr.onVars, Expr.result, hfv, onVars_shape hf]
      have h : k < w.shape.size := h
      rw [hsw] at h
      exact hk k h
    · simp only [Expr.onVars, Expr.exec, hfv, onVars_shape hf]
  | glue => exact hw.elim
  | forEach => exact hw.elim
  | _ => exact gen hw.1 rfl

omit [HasInf ℝ] [LinAlg ℝ] in
theorem target_mem {e : Expr ℝ} : ∀ v ∈ e.target, v ∈ e.vars := by
  cases e <;> simp [Expr.target, Expr.vars]

omit [HasInf ℝ] [LinAlg ℝ] in
theorem notMem_rng_of_apart {v w : View} (h : v.Apart w) {k : ℕ} (hk : k < w.size) : addr w.val + k ∉ rng v.val v.size := by
  intro hm
  rw [mem_rng] at hm
  exact (h (addr w.val + k - addr v.val) (by omega) k hk).1 (by omega)

omit [HasInf ℝ] [LinAlg ℝ] in
theorem View.Apart.symm {v w : View} (h : v.Apart w) : w.Apart v := fun j hj k hk => ⟨(h k hk j hj).1.symm, (h k hk j hj).2.symm⟩

omit [HasInf ℝ] [LinAlg ℝ] in
theorem View.Apart.ne {v w : View} (h : v.Apart w) (hs : v.shape = .scl) : v ≠ w := by
  rintro rfl
  have : 0 < v.size := by rw [View.size, hs]; exact Nat.one_pos
  exact (h 0 this 0 this).1 rfl

/-- `D` contains the aliased objects, which are scalar -/
structure Aliasing (V D : List View) (f : View → View) : Prop where
  shape : ∀ v, (f v).shape = v.shape
  own : ∀ v, f v = v ∨ (v ∈ D ∧ f v ∈ D)
  scl : ∀ v ∈ D, v.shape = .scl
  sub : ∀ v ∈ D, v ∈ V

theorem unaliased_main {V : List View} (hV : ∀ v ∈ V, ∀ v' ∈ V, v = v' ∨ v.Apart v') (s : St ℝ) (xs : List (SrcStmt ℝ)) : ∀ (D : List View) (f : View → View), Aliasing V D f →
    (∀ x ∈ xs, ∀ v ∈ x.vars, v ∈ V) → (∀ x ∈ xs, ∀ v ∈ x.changed, ∀ w ∈ D, v.Apart w) → Unaliased xs →
    ∃ l, buildStmts f xs s = some (s, l) ∧ l.map Expr.shape = (xs.map SrcStmt.meant).map Expr.shape ∧
      ∀ m m' : ℕ → ℝ, (∀ v ∈ V, ∀ k < v.size, m (addr (f v).val + k) = m' (addr v.val + k)) →
        (∀ x ∈ xs, ∀ c ∈ x.cviews, ∀ k < c.1.size, m (addr c.2 + k) = m' (addr c.2 + k)) →
        ∀ k < sizeR (xs.map SrcStmt.meant), resultL l m k = resultL (xs.map SrcStmt.meant) m' k := by
  induction xs with
  | nil => intro D f _ _ _ _; exact ⟨[], rfl, rfl, fun m m' _ _ k hk => rfl⟩
  | cons x xs ih =>
    intro D f hA hsub hch hU
    have hU' : Unaliased xs := ⟨fun e he => hU.stmt e (by simp [he]), fun c w d u h => hU.views c w d u (by simp [h]),
      fun x hx y hy => hU.apart x (by simp [hx]) y (by simp [hy]), fun x hx c hc y hy => hU.consts x (by simp [hx]) c hc y (by simp [hy]), (List.pairwise_cons.1 hU.after).2⟩
    have haft := (List.pairwise_cons.1 hU.after).1
    have hsub' : ∀ y ∈ xs, ∀ v ∈ y.vars, v ∈ V := fun y hy => hsub y (by simp [hy])
    cases x with
    | node e =>
      obtain ⟨l, hl, hsh, hr⟩ := ih D f hA hsub' (fun y hy => hch y (by simp [hy])) hU'
      refine ⟨e.onVars f :: l, by simp [buildStmts, hl], by simp [hsh, SrcStmt.meant, onVars_shape hA.shape], fun m m' hv hc => ?_⟩
      have hwf := hU.stmt e (by simp)
      have hevars : ∀ v ∈ e.vars, v ∈ V := hsub (.node e) (by simp)
      have hseen : Seen f m m' e := ⟨fun v h => hv v (hevars v h), hc (.node e) (by simp)⟩
      have htf : ∀ v ∈ e.target, f v = v := by
        intro v h
        rcases hA.own v with h1 | ⟨h1, -⟩
        · exact h1
        · exact absurd rfl (View.Apart.ne (hch (.node e) (by simp) v h v h1) (hA.scl v h1))
      obtain ⟨hres, hex⟩ := onVars_stmt hA.shape hwf hseen htf
      cases xs with
      | nil =>
        have : l = [] := by simpa [buildStmts] using hl.symm
        subst this
        exact hres
      | cons y ys =>
        cases l with
        | nil => simp at hsh
        | cons z zs =>
          simp only [List.map_cons, resultL, sizeR] at hr ⊢
          rcases hex with ⟨-, h1, h2⟩ | ⟨v, g, g', htv, h1, h2, hg⟩
          · simp only [SrcStmt.meant]
            rw [h1, h2]
            exact hr m m' hv fun x hx => hc x (by simp at hx ⊢; exact Or.inr hx)
          · simp only [SrcStmt.meant]
            rw [h1, h2]
            have htv' : v ∈ e.target := htv
            have hvV := hevars v (target_mem v htv')
            refine hr _ _ ?_ ?_
            · intro v' hv' k hk
              rcases eq_or_ne v' v with rfl | hne
              · rw [htf v' htv', assign_add hk, assign_add hk, hg k hk]
              · have hap : v.Apart v' := (hV v hvV v' hv').resolve_left (Ne.symm hne)
                have hapf : v.Apart (f v') := by
                  rcases hA.own v' with h3 | ⟨-, h3⟩
                  · rw [h3]; exact hap
                  · exact hch (.node e) (by simp) v htv' _ h3
                rw [assign_off (notMem_rng_of_apart hap hk), assign_off (notMem_rng_of_apart hapf (by rw [View.size, hA.shape]; exact hk)), hv v' hv' k hk]
            · intro x hx c hcx k hk
              have hoff : addr c.2 + k ∉ rng v.val v.size := by
                intro hm
                rw [mem_rng] at hm
                exact hU.consts x (by simp at hx ⊢; exact Or.inr hx) c hcx (.node e) (by simp) v htv' k hk (addr c.2 + k - addr v.val) (by omega) (by omega)
              rw [assign_off hoff, assign_off hoff]
              exact hc x (by simp at hx ⊢; exact Or.inr hx) c hcx k hk
    | copy c w d u =>
      obtain ⟨rfl, rfl, hws, hus⟩ := hU.views c w d u (by simp)
      have hwV : w ∈ V := hsub (.copy .view w .view u) (by simp) w (by simp [SrcStmt.vars])
      have huV : u ∈ V := hsub (.copy .view w .view u) (by simp) u (by simp [SrcStmt.vars])
      have hA' : Aliasing V (w :: u :: D) (fun x => if x = w then f u else f x) := by
        refine ⟨fun v => ?_, fun v => ?_, fun v hv => ?_, fun v hv => ?_⟩
        · split
          · rename_i h; rw [hA.shape, h, hus, hws]
          · exact hA.shape v
        · split
          · rename_i h
            right
            refine ⟨by simp [h], ?_⟩
            rcases hA.own u with h1 | ⟨-, h1⟩
            · rw [h1]; simp
            · simp [h1]
          · rcases hA.own v with h1 | ⟨h1, h2⟩
            · exact Or.inl h1
            · exact Or.inr ⟨List.mem_cons_of_mem _ (List.mem_cons_of_mem _ h1), List.mem_cons_of_mem _ (List.mem_cons_of_mem _ h2)⟩
        · simp only [List.mem_cons] at hv
          rcases hv with rfl | rfl | hv
          · exact hws
          · exact hus
          · exact hA.scl v hv
        · simp only [List.mem_cons] at hv
          rcases hv with rfl | rfl | hv
          · exact hwV
          · exact huV
          · exact hA.sub v hv
      obtain ⟨l, hl, hsh, hr⟩ := ih (w :: u :: D) _ hA' hsub' (by
        intro y hy v hvy w' hw'
        simp only [List.mem_cons] at hw'
        rcases hw' with rfl | rfl | hw'
        · exact haft y hy v hvy _ (by simp [SrcStmt.copied])
        · exact haft y hy v hvy _ (by simp [SrcStmt.copied])
        · exact hch y (by simp [hy]) v hvy _ hw') hU'
      refine ⟨.var (f u) :: l, ?_, ?_, fun m m' hv hc => ?_⟩
      · simp only [buildStmts]
        rw [view_assign' s ((hA.shape w).trans hws) ((hA.shape u).trans hus)]
        simp [hl]
      · simp only [List.map_cons, hsh, SrcStmt.meant, Expr.mkEq, Expr.shape, Expr.view, View.null, hA.shape, hus, hws]
      · cases xs with
        | nil =>
          have : l = [] := by simpa [buildStmts] using hl.symm
          subst this
          intro k hk
          simp only [List.map_cons, List.map_nil, resultL, SrcStmt.meant, Expr.mkEq, Expr.result, Expr.denote]
          refine hv u huV k ?_
          have hk : k < w.size := hk
          rw [View.size, hws] at hk
          rw [View.size, hus]; exact hk
        | cons y ys =>
          cases l with
          | nil => simp at hsh
          | cons z zs =>
            simp only [List.map_cons, resultL, sizeR] at hr ⊢
            simp only [SrcStmt.meant, Expr.mkEq, Expr.exec, Expr.denote]
            refine hr m _ ?_ ?_
            · intro v' hv' k hk
              rcases eq_or_ne v' w with rfl | hne
              · rw [if_pos rfl, assign_add hk, hv u huV k (by rw [View.size, hws] at hk; rw [View.size, hus]; exact hk)]
              · rw [if_neg hne, assign_off (notMem_rng_of_apart ((hV w hwV v' hv').resolve_left (Ne.symm hne)) hk), hv v' hv' k hk]
            · intro x hx c hcx k hk
              have hoff : addr c.2 + k ∉ rng w.val w.size := by
                intro hm
                rw [mem_rng] at hm
                exact hU.consts x (by simp at hx ⊢; exact Or.inr hx) c hcx (.copy .view w .view u) (by simp) w rfl k hk (addr c.2 + k - addr w.val) (by omega) (by omega)
              rw [assign_off hoff]
              exact hc x (by simp at hx ⊢; exact Or.inr hx) c hcx k hk

/-- the statements as they are built mean what they were meant to mean -/
theorem unaliased_ok {xs : List (SrcStmt ℝ)} (h : Unaliased xs) (s : St ℝ) : ∃ l, buildStmts id xs s = some (s, l) ∧ l.map Expr.shape = (xs.map SrcStmt.meant).map Expr.shape ∧
    ∀ m, ∀ k < sizeR (xs.map SrcStmt.meant), resultL l m k = resultL (xs.map SrcStmt.meant) m k := by
  obtain ⟨l, h1, h2, h3⟩ := unaliased_main (V := xs.flatMap SrcStmt.vars) (by
    intro v hv v' hv'
    obtain ⟨x, hx, hvx⟩ := List.mem_flatMap.1 hv
    obtain ⟨y, hy, hvy⟩ := List.mem_flatMap.1 hv'
    exact h.apart x hx y hy v hvx v' hvy) s xs [] id ⟨fun _ => rfl, fun _ => Or.inl rfl, by simp, by simp⟩
    (fun x hx v hv => List.mem_flatMap.2 ⟨x, hx, hv⟩) (by simp) h
  exact ⟨l, h1, h2, fun m k hk => h3 m m (fun _ _ _ _ => rfl) (fun _ _ _ _ _ _ => rfl) k hk⟩

omit [HasInf ℝ] [LinAlg ℝ] in
theorem sizeR_shapes {L L' : List (Expr ℝ)} (h : L.map Expr.shape = L'.map Expr.shape) : sizeR L = sizeR L' := by
  induction L generalizing L' with
  | nil => cases L' with
    | nil => rfl
    | cons => simp at h
  | cons x xs ih =>
    cases L' with
    | nil => simp at h
    | cons x' xs' =>
      simp only [List.map_cons, List.cons.injEq] at h
      cases xs with
      | nil => cases xs' with
        | nil => simp only [sizeR, Expr.size, h.1]
        | cons => simp at h
      | cons y ys => cases xs' with
        | nil => simp at h
        | cons y' ys' => exact ih (L' := y' :: ys') h.2

end

end FastAD
