import Verif.Proof.StatBernoulli
import Verif.Proof.Deriv

/-!
# Log-density nodes inside expressions: values
-/

open scoped Real Topology

namespace FastAD

noncomputable section

variable [HasInf ℝ] [LinAlg ℝ]
set_option linter.unusedSectionVars false

theorem once_of_evaluates {N : StatNode ℝ} {k : Kinds} {Adm : Args ℝ → Prop} {Hist : Args ℝ → List (Args ℝ) → Prop} {f : Args ℝ → ℝ}
    {P : N.Cache → Args ℝ → Prop} (h : Evaluates N k Adm Hist f P) {v : Args ℝ} (ha : Adm v) (hh : Hist v [v]) :
    ∃ c, N.once v = some (c, f v) ∧ P c v := by
  obtain ⟨c, c', h1, h2, h3⟩ := h v [] v hh (fun w hw => by simp at hw; subst hw; exact ⟨ha, fun _ _ => rfl⟩) ha
  refine ⟨c', ?_, h3⟩
  have h1' : N.ctor v = some c := h1
  rw [StatNode.once, h1']
  exact h2

theorem once_normalMat (sm : Bool) (k : Kinds) (n : ℕ) (v : Args ℝ) : ∃ c, (normalMat sm k n).once v = some (c, (StatOp.normalMat sm).real n v) := by
  have key : ∀ c0 : NormalMatCache ℝ, c0.posDef = false → ∃ c, (let c := c0.update n v.b
      if c.posDef = false then ret c negInf
      else
        let d := fun i => v.x i - v.a (if sm then 0 else i)
        let z := fun i => sumN n fun j => c.inv (i + j * n) * d j
        let sq := sumN n fun i => d i * z i
        ret { c with z := z } (-half * sq - c.logDet)) = some (c, (StatOp.normalMat sm).real n v) := by
    intro c0 h0
    by_cases h : LinAlg.lltOk n (trunc (n * n) v.b) = true
    · simp only [NormalMatCache.update, h, if_true, StatOp.real, Bool.true_eq_false, if_false, ret]
      refine ⟨_, congrArg some (Prod.ext rfl ?_)⟩
      simp only [half_eq, sumN_eq, Finset.sum_range]
      rfl
    · simp only [NormalMatCache.update, h, if_true, StatOp.real, ret, Bool.false_eq_true, if_false]
      exact ⟨_, rfl⟩
  cases hb : k.b.isConst with
  | true =>
    obtain ⟨c, h⟩ := key ⟨0, false, fun _ => 0, fun _ => 0⟩ rfl
    refine ⟨c, ?_⟩
    rw [StatNode.once]
    simp only [normalMat, hb, if_true, Option.bind_eq_bind, Option.bind_some]
    exact h
  | false =>
    obtain ⟨c, h⟩ := key ⟨0, false, fun _ => 0, fun _ => 0⟩ rfl
    refine ⟨c, ?_⟩
    rw [StatNode.once]
    simp only [normalMat, hb, Bool.false_eq_true, if_false, Option.bind_eq_bind, Option.bind_some]
    exact h

theorem once_wishart (k : Kinds) (n : ℕ) (hx : k.x = .const → k.a = .const) (v : Args ℝ) : ∃ c, (wishart k n).once v = some (c, StatOp.wishart.real n v) := by
  have hfe : (wishart k n).once v = (let c := (WishartCache.updateV ⟨0, 0, false, false, fun _ => 0, fun _ => 0, fun _ => 0⟩ n v.a).updateX n v.x
      if c.valid n (v.b 0) then
        ret c ((v.b 0 - (n : ℝ) - 1) * c.logX - half * sumN n (fun i => c.xvInv (i + i * n)) - v.b 0 * c.logV)
      else ret c negInf) := by
    rw [StatNode.once]
    by_cases ha : k.a = .const
    · by_cases hx' : k.x = .const
      · simp only [wishart, isConst_iff.2 ha, isConst_iff.2 hx', if_true, Option.bind_eq_bind, Option.bind_some]
      · simp only [wishart, isConst_iff.2 ha, isConst_false hx', if_true, Bool.false_eq_true, if_false, Option.bind_eq_bind, Option.bind_some]
    · have hx' : k.x ≠ .const := fun h => ha (hx h)
      simp only [wishart, isConst_false ha, isConst_false hx', Bool.false_eq_true, if_false, Option.bind_eq_bind, Option.bind_some]
  rw [hfe]
  have hb : (n : ℝ) - 1 < v.b 0 ↔ Fn.blt (n : ℝ) (v.b 0 + 1) = true := by rw [blt_iff]; constructor <;> intro h <;> linarith
  by_cases h1 : LinAlg.lltOk n (trunc (n * n) v.a) = true
  · by_cases h2 : LinAlg.lltOk n (trunc (n * n) v.x) = true
    · by_cases h3 : (n : ℝ) - 1 < v.b 0
      · simp only [WishartCache.updateV, WishartCache.updateX, WishartCache.valid, h1, h2, if_true, Bool.true_and, hb.1 h3, StatOp.real, h3, and_self, ret]
        refine ⟨_, congrArg some (Prod.ext rfl ?_)⟩
        simp only [half_eq]
        congr 3
        rw [sumN_eq, Finset.sum_range]
        refine Finset.sum_congr rfl fun i _ => ?_
        simp only [mul2, mod_idx i.2, div_idx i.2, sumN_eq, Finset.sum_range]
        rfl
      · have h3' : Fn.blt (n : ℝ) (v.b 0 + 1) = false := by rw [← Bool.not_eq_true, ← hb]; exact h3
        simp only [WishartCache.updateV, WishartCache.updateX, WishartCache.valid, h1, h2, if_true, Bool.true_and, h3', StatOp.real, h3, and_false, ret,
          Bool.false_eq_true, if_false]
        exact ⟨_, rfl⟩
    · simp only [WishartCache.updateV, WishartCache.updateX, WishartCache.valid, h1, h2, if_true, Bool.false_and, StatOp.real, false_and, ret,
          Bool.false_eq_true, if_false]
      exact ⟨_, rfl⟩
  · simp only [WishartCache.updateV, WishartCache.updateX, WishartCache.valid, h1, if_true, Bool.and_false, Bool.false_and, StatOp.real, and_false, false_and, ret,
          Bool.false_eq_true, if_false]
    exact ⟨_, rfl⟩

theorem checksAgree_self (sa sb : Bool) (n : ℕ) (v : Args ℝ) : ChecksAgree sa sb n v v := ⟨fun _ => Iff.rfl, fun _ => Iff.rfl⟩

/-- a log-density node evaluates to the log-density -/
theorem StatOp.once_eq (o : StatOp) (k : Kinds) (n : ℕ) (hs : o.Sound k n) (v : Args ℝ) : ∃ c, (o.node k n).once v = some (c, o.real n v) := by
  have ev : ∀ {N : StatNode ℝ} {k : Kinds} {Hist : Args ℝ → List (Args ℝ) → Prop} {f : Args ℝ → ℝ}
    {P : N.Cache → Args ℝ → Prop}, Evaluates N k (fun _ => True) Hist f P → Hist v [v] → ∃ c, N.once v = some (c, f v) := by
    intro N k Hist f P h hh
    obtain ⟨c, h, -⟩ := once_of_evaluates h trivial hh
    exact ⟨c, h⟩
  cases o with
  | normalSSS => exact ev (normalSSS_computes k) trivial
  | normalVSS => exact ev (normalVSS_computes k n hs) trivial
  | normalVVS => exact ev (normalVVS_computes k n) trivial
  | normalVSV => exact ev (normalVSV_computes k n) trivial
  | normalVVV => exact ev (normalVVV_computes k n) trivial
  | normalMat sm => exact once_normalMat sm k n v
  | cauchySSS => exact ev (cauchySSS_computes k) trivial
  | cauchyScl sl => exact ev (cauchyScl_computes sl k n) trivial
  | cauchyVec sl => exact ev (cauchyVec_computes sl k n) trivial
  | uniformSSS => exact ev (uniformSSS_computes k) trivial
  | uniformVec sa sb =>
    refine ev (uniformVec_computes sa sb k n hs.1 fun h1 h2 => ⟨fun h => ?_, fun h => ?_⟩) fun _ _ w hw => ?_
    · rw [(hs.2 h1 h2).1 h]; simp
    · rw [(hs.2 h1 h2).2 h]; simp
    · simp at hw; subst hw; exact checksAgree_self _ _ _ _
  | bernoulliSS => exact ev (bernoulliSS_computes k) trivial
  | bernoulliVS => exact ev (bernoulliVS_computes k n) trivial
  | bernoulliVV => exact ev (bernoulliVV_computes k n) trivial
  | wishart => exact once_wishart k n hs.2 v

/-- two sets of operand values agree on the coefficients that exist -/
def StatOp.Agree (o : StatOp) (n : ℕ) (v w : Args ℝ) : Prop := ∀ s ∈ o.slots, ∀ i < (o.shape n s).size, v.get s i = w.get s i

theorem agree_scl {f g : ℕ → ℝ} (h : ∀ i < Shape.scl.size, f i = g i) : f 0 = g 0 := h 0 (by decide)

theorem agree_vec {f g : ℕ → ℝ} {n : ℕ} (h : ∀ i < (Shape.vec n).size, f i = g i) : ∀ i < n, f i = g i :=
  fun i hi => h i (by simpa [Shape.vec, Shape.size] using hi)

theorem agree_par {f g : ℕ → ℝ} {s : Bool} {n : ℕ} (h : ∀ i < (parShape s n).size, f i = g i) : ∀ i < pdim s n, f i = g i := by
  intro i hi
  refine h i ?_
  cases s <;> simpa [parShape, pdim, Shape.vec, Shape.scl, Shape.size] using hi

theorem agree_mat {f g : ℕ → ℝ} {n : ℕ} (h : ∀ i < (Shape.mat n n).size, f i = g i) : trunc (n * n) f = trunc (n * n) g ∧ toMat n f = toMat n g := by
  have h1 : trunc (n * n) f = trunc (n * n) g := by
    funext i
    simp only [trunc]
    split
    · exact h i (by simpa [Shape.mat, Shape.size])
    · rfl
  exact ⟨h1, by rw [← toMat_trunc, h1, toMat_trunc]⟩

theorem ScaleOk.congr {ss : Bool} {n : ℕ} {v w : Args ℝ} (h : ∀ i < pdim ss n, v.b i = w.b i) : ScaleOk ss n v ↔ ScaleOk ss n w :=
  forall_congr' fun i => imp_congr_right fun hi => by rw [h i hi]

theorem normalLog_congr {sm ss : Bool} {n : ℕ} {v w : Args ℝ} (hx : ∀ i < n, v.x i = w.x i) (ha : ∀ i < pdim sm n, v.a i = w.a i)
    (hb : ∀ i < pdim ss n, v.b i = w.b i) : normalLog sm ss n v = normalLog sm ss n w :=
  Finset.sum_congr rfl fun i hi => by
    have hi := Finset.mem_range.1 hi
    rw [hx i hi, ha _ (pidx_lt hi), hb _ (pidx_lt hi)]

theorem cauchyLog_congr {sm ss : Bool} {n : ℕ} {v w : Args ℝ} (hx : ∀ i < n, v.x i = w.x i) (ha : ∀ i < pdim sm n, v.a i = w.a i)
    (hb : ∀ i < pdim ss n, v.b i = w.b i) : cauchyLog sm ss n v = cauchyLog sm ss n w :=
  Finset.sum_congr rfl fun i hi => by
    have hi := Finset.mem_range.1 hi
    rw [hx i hi, ha _ (pidx_lt hi), hb _ (pidx_lt hi)]

theorem uniformLog_congr {sm ss : Bool} {n : ℕ} {v w : Args ℝ} (hx : ∀ i < n, v.x i = w.x i) (ha : ∀ i < pdim sm n, v.a i = w.a i)
    (hb : ∀ i < pdim ss n, v.b i = w.b i) : uniformLog sm ss n v = uniformLog sm ss n w :=
  Finset.sum_congr rfl fun i hi => by
    have hi := Finset.mem_range.1 hi
    rw [hx i hi, ha _ (pidx_lt hi), hb _ (pidx_lt hi)]

theorem InRange.congr {sm ss : Bool} {n : ℕ} {v w : Args ℝ} (hx : ∀ i < n, v.x i = w.x i) (ha : ∀ i < pdim sm n, v.a i = w.a i)
    (hb : ∀ i < pdim ss n, v.b i = w.b i) : InRange sm ss n v ↔ InRange sm ss n w :=
  forall_congr' fun i => imp_congr_right fun hi => by rw [hx i hi, ha _ (pidx_lt hi), hb _ (pidx_lt hi)]

theorem bernoulliLog_congr {sp : Bool} {n : ℕ} {v w : Args ℝ} (hx : ∀ i < n, v.x i = w.x i) (ha : ∀ i < pdim sp n, v.a i = w.a i) :
    bernoulliLog sp n v = bernoulliLog sp n w :=
  Finset.sum_congr rfl fun i hi => by
    have hi := Finset.mem_range.1 hi
    rw [hx i hi, ha _ (pidx_lt hi)]

theorem MassPos.congr {sp : Bool} {n : ℕ} {v w : Args ℝ} (hx : ∀ i < n, v.x i = w.x i) (ha : ∀ i < pdim sp n, v.a i = w.a i) :
    MassPos sp n v ↔ MassPos sp n w :=
  forall_congr' fun i => imp_congr_right fun hi => by rw [hx i hi, ha _ (pidx_lt hi)]

theorem ProbSmooth.congr {sp : Bool} {n : ℕ} {v w : Args ℝ} (ha : ∀ i < pdim sp n, v.a i = w.a i) : ProbSmooth sp n v ↔ ProbSmooth sp n w :=
  forall_congr' fun i => imp_congr_right fun hi => by rw [ha _ (pidx_lt hi)]

/-- the existing coefficients determine validity, the value, symmetry and smoothness -/
theorem StatOp.Agree.congr {o : StatOp} {n : ℕ} {v w : Args ℝ} (h : o.Agree n v w) :
    (o.valid n v ↔ o.valid n w) ∧ o.logp n v = o.logp n w ∧ o.real n v = o.real n w ∧ (o.Adm n v ↔ o.Adm n w) ∧ (o.Smooth n v ↔ o.Smooth n w) := by
  have or : ∀ {valid : Args ℝ → Prop} {logp : Args ℝ → ℝ}, (valid v ↔ valid w) → logp v = logp w → orNegInf valid logp v = orNegInf valid logp w := by
    intro valid logp h1 h2
    by_cases hv : valid v
    · rw [orNegInf_pos hv, orNegInf_pos (h1.1 hv), h2]
    · rw [orNegInf_neg hv, orNegInf_neg fun h => hv (h1.2 h)]
  have one : ∀ {f g : ℕ → ℝ}, (∀ i < Shape.scl.size, f i = g i) → ∀ i < 1, f i = g i := fun h i hi => h i hi
  cases o with
  | normalSSS =>
    have hx := one (h .x (by simp [slots])); have ha := one (h .a (by simp [slots])); have hb := one (h .b (by simp [slots]))
    have h1 : ScaleOk true 1 v ↔ ScaleOk true 1 w := ScaleOk.congr hb
    have h2 := normalLog_congr (sm := true) (ss := true) (n := 1) hx ha hb
    exact ⟨h1, h2, or h1 h2, Iff.rfl, Iff.rfl⟩
  | cauchySSS =>
    have hx := one (h .x (by simp [slots])); have ha := one (h .a (by simp [slots])); have hb := one (h .b (by simp [slots]))
    have h1 : ScaleOk true 1 v ↔ ScaleOk true 1 w := ScaleOk.congr hb
    have h2 := cauchyLog_congr (sm := true) (ss := true) (n := 1) hx ha hb
    exact ⟨h1, h2, or h1 h2, Iff.rfl, Iff.rfl⟩
  | uniformSSS =>
    have hx := one (h .x (by simp [slots])); have ha := one (h .a (by simp [slots])); have hb := one (h .b (by simp [slots]))
    have h1 := InRange.congr (sm := true) (ss := true) (n := 1) hx ha hb
    have h2 := uniformLog_congr (sm := true) (ss := true) (n := 1) hx ha hb
    exact ⟨h1, h2, or h1 h2, Iff.rfl, Iff.rfl⟩
  | normalVSS | normalVVS | normalVSV | normalVVV =>
    have hx := agree_vec (h .x (by simp [slots])); have ha := agree_par (h .a (by simp [slots])); have hb := agree_par (h .b (by simp [slots]))
    have h1 := ScaleOk.congr hb
    have h2 := normalLog_congr hx ha hb
    exact ⟨h1, h2, or h1 h2, Iff.rfl, Iff.rfl⟩
  | cauchyScl sl =>
    have hx := agree_vec (h .x (by simp [slots])); have ha := agree_par (h .a (by simp [slots])); have hb := agree_par (s := true) (h .b (by simp [slots]))
    have h1 := ScaleOk.congr hb
    have h2 := cauchyLog_congr hx ha hb
    exact ⟨h1, h2, or h1 h2, Iff.rfl, Iff.rfl⟩
  | cauchyVec sl =>
    have hx := agree_vec (h .x (by simp [slots])); have ha := agree_par (h .a (by simp [slots])); have hb := agree_par (s := false) (h .b (by simp [slots]))
    have h1 := ScaleOk.congr hb
    have h2 := cauchyLog_congr hx ha hb
    exact ⟨h1, h2, or h1 h2, Iff.rfl, Iff.rfl⟩
  | uniformVec sa sb =>
    have hx := agree_vec (h .x (by simp [slots])); have ha := agree_par (h .a (by simp [slots])); have hb := agree_par (h .b (by simp [slots]))
    have h1 := InRange.congr hx ha hb
    have h2 := uniformLog_congr hx ha hb
    exact ⟨h1, h2, or h1 h2, Iff.rfl, Iff.rfl⟩
  | bernoulliSS =>
    have hx := one (h .x (by simp [slots])); have ha := one (h .a (by simp [slots]))
    have h1 := MassPos.congr (sp := true) (n := 1) hx ha
    have h2 := bernoulliLog_congr (sp := true) (n := 1) hx ha
    exact ⟨h1, h2, or h1 h2, Iff.rfl, ProbSmooth.congr ha⟩
  | bernoulliVS | bernoulliVV =>
    have hx := agree_vec (h .x (by simp [slots])); have ha := agree_par (h .a (by simp [slots]))
    have h1 := MassPos.congr hx ha
    have h2 := bernoulliLog_congr hx ha
    exact ⟨h1, h2, or h1 h2, Iff.rfl, ProbSmooth.congr ha⟩
  | normalMat sm =>
    have hx := agree_vec (h .x (by simp [slots])); have ha := agree_par (h .a (by simp [slots])); obtain ⟨hb, hb'⟩ := agree_mat (h .b (by simp [slots]))
    have hd : (fun i : Fin n => v.x i - v.a (pidx sm i)) = fun i : Fin n => w.x i - w.a (pidx sm i) := by
      funext i
      rw [show v.x i = w.x i from hx i i.2, show v.a (pidx sm i) = w.a (pidx sm i) from ha _ (pidx_lt i.2)]
    have hd1 : (fun i : Fin n => v.x i) = fun i : Fin n => w.x i := funext fun i => hx i i.2
    have hd2 : (fun i : Fin n => v.a (pidx sm i)) = fun i : Fin n => w.a (pidx sm i) := funext fun i => ha _ (pidx_lt i.2)
    have hb1 : trunc (n * n) v.b = trunc (n * n) w.b := hb
    have hb2 : toMat n v.b = toMat n w.b := hb'
    refine ⟨?_, ?_, ?_, ?_, Iff.rfl⟩
    · simp only [valid, hb2]
    · simp only [logp, mvNormalLog, hb2, hd1, hd2]
    · simp only [real, hb1, hd]
    · simp only [Adm, SigmaSymm, hb2]
  | wishart =>
    obtain ⟨hx, hx'⟩ := agree_mat (h .x (by simp [slots])); obtain ⟨ha, ha'⟩ := agree_mat (h .a (by simp [slots])); have hb := agree_scl (h .b (by simp [slots]))
    have h1 : trunc (n * n) v.x = trunc (n * n) w.x := hx
    have h2 : toMat n v.x = toMat n w.x := hx'
    have h3 : trunc (n * n) v.a = trunc (n * n) w.a := ha
    have h4 : toMat n v.a = toMat n w.a := ha'
    have h5 : v.b 0 = w.b 0 := hb
    refine ⟨?_, ?_, ?_, ?_, Iff.rfl⟩
    · simp only [valid, WishartOk, h2, h4, h5]
    · simp only [logp, wishartLog, h2, h4, h5]
    · simp only [real, h1, h2, h3, h5]
    · simp only [Adm, WishartSymm, h2, h4]

/-- the operands of a log-density -/
structure StatOp.Ops (o : StatOp) (k : Kinds) (n : ℕ) (op : Slot → Expr ℝ) : Prop where
  rows : (o.shape n .x).rows = n
  shape : ∀ s ∈ o.slots, (op s).shape = o.shape n s
  kind : ∀ s ∈ o.slots, (op s).argKind = k.get s
  noIf : ∀ s ∈ o.slots, (op s).isIf = false
  sound : o.Sound k n

/-- operand values -/
def opArgs (two : Bool) (f : Slot → ℕ → ℝ) : Args ℝ := ⟨f .x, f .a, if two then fun _ => 0 else f .b⟩

theorem StatOp.slots_eq (o : StatOp) : o.slots = if o.discrete then [.x, .a] else [.x, .a, .b] := by cases o <;> rfl

theorem opArgs_get (o : StatOp) (f : Slot → ℕ → ℝ) {s : Slot} (hs : s ∈ o.slots) : (opArgs o.discrete f).get s = f s := by
  rw [o.slots_eq] at hs
  cases h : o.discrete <;> rw [h] at hs <;> cases s <;> simp at hs <;> rfl

/-- the operand list of a log-density -/
theorem StatOp.Fits.ops {o : StatOp} {k : Kinds} {es : Exprs ℝ} (h : o.Fits k es) : ∃ n op, o.Ops k n op ∧ es = .ofList (o.slots.map op) := by
  obtain ⟨n, h1, h2, h3, h4, -, h5⟩ := h
  have ofL : ∀ es : Exprs ℝ, es = .ofList es.toList := by
    intro es
    induction es using Exprs.rec (motive_1 := fun _ => True) with
    | nil => rfl
    | cons e es _ ih => simp only [Exprs.toList, Exprs.ofList]; rw [← ih]
    | _ => trivial
  rw [ofL es]
  generalize es.toList = l at h2 h3 h4 ⊢
  rw [o.slots_eq] at h2 h3 ⊢
  have mem : ∀ s, s ∈ o.slots ↔ s ∈ (if o.discrete then [Slot.x, .a] else [.x, .a, .b]) := fun s => by rw [o.slots_eq]
  cases hd : o.discrete with
  | true =>
    simp only [hd, if_true, Bool.false_eq_true, if_false, List.map_cons, List.map_nil] at h2 h3
    have hlen := congrArg List.length h2
    simp only [List.length_map, List.length_cons, List.length_nil] at hlen
    match l, hlen, h2, h3, h4 with
    | [ex, ea], _, h2, h3, h4 =>
      simp only [if_true, List.map_cons, List.map_nil, List.cons.injEq, and_true] at h2 h3
      refine ⟨n, fun s => match s with | .x => ex | .a => ea | .b => ex, ⟨h1, fun s hs => ?_, fun s hs => ?_, fun s hs => ?_, h5⟩, rfl⟩
      all_goals
        rw [mem, hd, if_pos rfl] at hs
        cases s <;> simp at hs
      · exact h2.1
      · exact h2.2
      · exact h3.1
      · exact h3.2
      · exact h4 _ (by simp)
      · exact h4 _ (by simp)
  | false =>
    simp only [hd, if_true, Bool.false_eq_true, if_false, List.map_cons, List.map_nil] at h2 h3
    have hlen := congrArg List.length h2
    simp only [List.length_map, List.length_cons, List.length_nil] at hlen
    match l, hlen, h2, h3, h4 with
    | [ex, ea, eb], _, h2, h3, h4 =>
      simp only [Bool.false_eq_true, if_false, List.map_cons, List.map_nil, List.cons.injEq, and_true] at h2 h3
      refine ⟨n, fun s => match s with | .x => ex | .a => ea | .b => eb, ⟨h1, fun s hs => ?_, fun s hs => ?_, fun s hs => ?_, h5⟩, rfl⟩
      all_goals cases s
      · exact h2.1
      · exact h2.2.1
      · exact h2.2.2
      · exact h3.1
      · exact h3.2.1
      · exact h3.2.2
      · exact h4 _ (by simp)
      · exact h4 _ (by simp)
      · exact h4 _ (by simp)

theorem denotes_ofList (l : List (Expr ℝ)) (m : ℕ → ℝ) : (Exprs.ofList l).denotes m = l.map fun e => (e.shape, e.denote m) := by
  induction l with
  | nil => rfl
  | cons e l ih => simp only [Exprs.ofList, Exprs.denotes, ih, List.map_cons]

theorem statArgs_ops {o : StatOp} {k : Kinds} {n : ℕ} {op : Slot → Expr ℝ} (h : o.Ops k n op) (f : Slot → ℕ → ℝ) :
    statArgs (o.slots.map fun s => ((op s).shape, f s)) = some (n, opArgs o.discrete f) := by
  have h0 : (op .x).shape.rows = n := by rw [h.shape .x (by cases o <;> simp [StatOp.slots]), h.rows]
  rw [o.slots_eq]
  cases hd : o.discrete <;> simp [statArgs, opArgs, h0]

theorem StatOp.Agree.of_trunc {o : StatOp} {k : Kinds} {n : ℕ} {op : Slot → Expr ℝ} (h : o.Ops k n op) (m : ℕ → ℝ) :
    o.Agree n (opArgs o.discrete fun s => trunc (op s).shape.size ((op s).denote m)) (opArgs o.discrete fun s => (op s).denote m) := by
  intro s hs i hi
  rw [opArgs_get _ _ hs, opArgs_get _ _ hs, h.shape s hs]
  exact trunc_of_lt hi

/-- the reals of a log-density -/
theorem reals_stat {o : StatOp} {k : Kinds} {n : ℕ} {op : Slot → Expr ℝ} (h : o.Ops k n op) (f : Slot → ℕ → ℝ) :
    (RedOp.stat o k).reals (o.slots.map fun s => ((op s).shape, f s)) = o.real n (opArgs o.discrete f) := by
  have h1 := statArgs_ops h f
  have h2 : ∀ l : List (Shape × (ℕ → ℝ)), l.length ≠ 1 → (RedOp.stat o k).reals l = (statArgs l).elim 0 fun p => o.real p.1 p.2 := by
    intro l hl
    match l, hl with
    | [], _ => rfl
    | [_], h => simp at h
    | _ :: _ :: _, _ => rfl
  rw [h2 _ (by rw [o.slots_eq]; cases o.discrete <;> simp), h1]
  rfl

theorem fmap_stat {o : StatOp} {k : Kinds} (l : List (Shape × (ℕ → ℝ))) (hl : l.length ≠ 1) : (RedOp.stat o k).fmap l = o.fmap k l := by
  match l, hl with
  | [], _ => rfl
  | [_], h => simp at h
  | _ :: _ :: _, _ => rfl

theorem bmap_stat {o : StatOp} {k : Kinds} (l : List (Shape × (ℕ → ℝ))) (hl : l.length ≠ 1) (g f : ℝ) (i : ℕ) :
    (RedOp.stat o k).bmap g l f i = o.bmap k g l i := by
  match l, hl with
  | [], _ => rfl
  | [_], h => simp at h
  | _ :: _ :: _, _ => rfl

/-- **Value of the reductions**: what the node computes from the operand values is the mathematical value. -/
theorem reduce_valueN {op : RedOp} {es : Exprs ℝ} {w : View} (hwf : (Expr.reduce op es w).NWF) (m : ℕ → ℝ) :
    op.fmap ((es.denotes m).map fun x => (x.1, trunc x.1.size x.2)) = some (op.reals (es.denotes m)) := by
  obtain ⟨-, -, ⟨e, rfl, -⟩ | ⟨o, k, rfl, hfit⟩⟩ := hwf
  · simp only [Exprs.denotes, List.map, RedOp.fmap, RedOp.reals]
    exact congrArg some (RedOp.fmap1_eq op e.shape (e.denote m))
  · obtain ⟨n, op, hop, rfl⟩ := hfit.ops
    rw [denotes_ofList, List.map_map (f := op), List.map_map]
    have e1 : (o.slots.map ((fun x : Shape × (ℕ → ℝ) => (x.1, trunc x.1.size x.2)) ∘ ((fun e : Expr ℝ => (e.shape, e.denote m)) ∘ op))) =
        o.slots.map fun s => ((op s).shape, trunc (op s).shape.size ((op s).denote m)) := rfl
    have e2 : (o.slots.map ((fun e : Expr ℝ => (e.shape, e.denote m)) ∘ op)) = o.slots.map fun s => ((op s).shape, (op s).denote m) := rfl
    rw [e1, e2, reals_stat hop, fmap_stat _ (by rw [o.slots_eq]; cases o.discrete <;> simp), StatOp.fmap, statArgs_ops hop]
    obtain ⟨c, hc⟩ := o.once_eq k n hop.sound (opArgs o.discrete fun s => trunc (op s).shape.size ((op s).denote m))
    simp only [Option.bind_eq_bind, Option.bind_some, hc]
    rw [(StatOp.Agree.of_trunc hop m).congr.2.2.1]

/-- reductions of one operand -/
theorem reduce_singleN {op : RedOp} {e : Expr ℝ} {w : View} (hwf : (Expr.reduce op (.cons e .nil) w).NWF) :
    op.ShapeOk e.shape ∧ (e.isIf = true → op.usesX = false) := by
  obtain ⟨-, -, ⟨e', he, h⟩ | ⟨o, k, -, n, -, h, -⟩⟩ := hwf
  · obtain rfl : e = e' := by simpa using he
    exact h
  · have := congrArg List.length h
    rw [o.slots_eq] at this
    cases hd : o.discrete <;> simp [hd, Exprs.toList] at this

end

end FastAD
