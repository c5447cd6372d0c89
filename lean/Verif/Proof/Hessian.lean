import Verif.Model.Hessian
import Verif.Spec.Hessian
import Verif.Proof.Converge
import Verif.Proof.Forward

/-!
# Reverse mode over forward variables
-/

open Filter Topology

namespace FastAD

set_option linter.unusedSectionVars false

/-- the same domains for forward variables -/
def dualDoms : Doms (Dual ℝ) where
  un op x := fwdDoms.un op x.w
  den x := x.w ≠ 0
  cmp _ _ := False
  pow _ _ := False
  fac _ := False
  stat _ _ _ := False

/-- a forward variable holds the value and the derivative of a function at 0 -/
def Tan (x : Dual ℝ) (c : ℝ → ℝ) : Prop := c 0 = x.w ∧ HasDerivAt c x.df 0

theorem Tan.ofVal (x : ℝ) : Tan (.ofVal x) fun _ => x := ⟨rfl, hasDerivAt_const 0 x⟩

theorem Tan.fn {op : FUn} (h1 : op ≠ .erf) {x : Dual ℝ} {c : ℝ → ℝ} (hd : op.DomAt x.w) (h : Tan x c) : Tan (op.map x) fun t => op.real (c t) := by
  refine ⟨by simp only [op.map_w, h.1], ?_⟩
  rw [op.map_df x fun h => absurd h h1]
  have h2 := UOp.hasDerivAt op.rev (op.domAt_rev _ hd)
  rw [op.real_rev, ← h.1] at h2
  rw [← h.1]
  exact h2.comp 0 h.2

theorem Tan.add {x y : Dual ℝ} {c d : ℝ → ℝ} (hx : Tan x c) (hy : Tan y d) : Tan (x + y) fun t => c t + d t :=
  ⟨by beta_reduce; rw [hx.1, hy.1]; rfl, hx.2.fun_add hy.2⟩

theorem Tan.sub {x y : Dual ℝ} {c d : ℝ → ℝ} (hx : Tan x c) (hy : Tan y d) : Tan (x - y) fun t => c t - d t :=
  ⟨by beta_reduce; rw [hx.1, hy.1]; rfl, hx.2.fun_sub hy.2⟩

theorem Tan.mul {x y : Dual ℝ} {c d : ℝ → ℝ} (hx : Tan x c) (hy : Tan y d) : Tan (x * y) fun t => c t * d t := by
  refine ⟨by beta_reduce; rw [hx.1, hy.1]; rfl, (hx.2.fun_mul hy.2).congr_deriv ?_⟩
  rw [hx.1, hy.1]
  show x.df * y.w + x.w * y.df = x.w * y.df + x.df * y.w
  ring

theorem Tan.div {x y : Dual ℝ} {c d : ℝ → ℝ} (h : y.w ≠ 0) (hx : Tan x c) (hy : Tan y d) : Tan (x / y) fun t => c t / d t := by
  refine ⟨by beta_reduce; rw [hx.1, hy.1]; rfl, (hx.2.fun_div hy.2 (by rw [hy.1]; exact h)).congr_deriv ?_⟩
  rw [hx.1, hy.1]
  show (x.df * y.w - x.w * y.df) / y.w ^ 2 = (x.df * y.w - x.w * y.df) / (y.w * y.w)
  rw [sq]

theorem Tan.neg {x : Dual ℝ} {c : ℝ → ℝ} (h : Tan x c) : Tan (-x) fun t => -c t := h.fn (op := .neg) (by decide) trivial

theorem Tan.un {op : UOp} {x : Dual ℝ} {c : ℝ → ℝ} (hd : fwdDoms.un op x.w) (h : Tan x c) : Tan (op.fmap x) fun t => op.fmap (c t) := by
  obtain ⟨h1, h2, h3, h4, hd⟩ := hd
  cases op
  case neg => exact h.neg
  case sin => exact h.fn (op := .sin) (by decide) trivial
  case cos => exact h.fn (op := .cos) (by decide) trivial
  case tan => exact h.fn (op := .tan) (by decide) hd
  case asin => exact h.fn (op := .asin) (by decide) hd
  case acos => exact h.fn (op := .acos) (by decide) hd
  case atan => exact h.fn (op := .atan) (by decide) trivial
  case exp => exact h.fn (op := .exp) (by decide) trivial
  case log => exact h.fn (op := .log) (by decide) hd
  case sqrt => exact h.fn (op := .sqrt) (by decide) hd
  case sigmoid =>
    exact Tan.div (show 1 + Real.exp (-x.w) ≠ 0 by positivity) (Tan.ofVal 1) ((Tan.ofVal 1).add (h.neg.fn (op := .exp) (by decide) trivial))
  case erf => exact absurd rfl h1
  case sinh => exact absurd rfl h2
  case cosh => exact absurd rfl h3
  case tanh => exact absurd rfl h4

theorem Tan.unb {op : UOp} {x s : Dual ℝ} {c σ : ℝ → ℝ} (hd : fwdDoms.un op x.w) (h : Tan x c) (hs : Tan s σ) :
    Tan (op.bmap s x (op.fmap x)) fun t => op.bmap (σ t) (c t) (op.fmap (c t)) := by
  have hf := Tan.un hd h
  obtain ⟨h1, h2, h3, h4, hd⟩ := hd
  have hq : -1 < x.w → x.w < 1 → 0 < 1 - x.w * x.w := fun a b => by nlinarith
  cases op
  case neg => exact hs.neg
  case sin => exact hs.mul (h.fn (op := .cos) (by decide) trivial)
  case cos => exact hs.neg.mul (h.fn (op := .sin) (by decide) trivial)
  case tan =>
    have hc := h.fn (op := .cos) (by decide) trivial
    exact Tan.div (mul_ne_zero hd hd) hs (hc.mul hc)
  case asin =>
    have hp := hq hd.1 hd.2
    exact Tan.div (Real.sqrt_pos.2 hp).ne' hs (Tan.fn (op := .sqrt) (x := 1 - x * x) (by decide) hp ((Tan.ofVal 1).sub (h.mul h)))
  case acos =>
    have hp := hq hd.1 hd.2
    exact (Tan.div (Real.sqrt_pos.2 hp).ne' hs (Tan.fn (op := .sqrt) (x := 1 - x * x) (by decide) hp ((Tan.ofVal 1).sub (h.mul h)))).neg
  case atan => exact Tan.div (show 1 + x.w * x.w ≠ 0 by nlinarith [mul_self_nonneg x.w]) hs ((Tan.ofVal 1).add (h.mul h))
  case exp => exact hs.mul hf
  case log => exact Tan.div (ne_of_gt hd) hs h
  case sqrt => exact Tan.div (Real.sqrt_pos.2 hd).ne' (((Tan.ofVal 1).div (y := ((2 : ℕ) : Dual ℝ)) (show ((2 : ℕ) : ℝ) ≠ 0 by norm_num) (Tan.ofVal _)).mul hs) hf
  case sigmoid =>
    have he := h.neg.fn (op := .exp) (by decide) trivial
    have hp : Real.exp (-x.w) + 1 ≠ 0 := by positivity
    exact Tan.div (mul_ne_zero hp hp) (hs.mul he) ((he.add (Tan.ofVal 1)).mul (he.add (Tan.ofVal 1)))
  case erf => exact absurd rfl h1
  case sinh => exact absurd rfl h2
  case cosh => exact absurd rfl h3
  case tanh => exact absurd rfl h4

variable [HasInf ℝ] [LinAlg ℝ] [HasInf (Dual ℝ)] [LinAlg (Dual ℝ)]

/-- runs over forward variables and real runs along a line -/
theorem tan_related : Related (β := fun _ : ℝ => ℝ) (𝓝 0) dualDoms Tan where
  congr h hc := ⟨hc.self_of_nhds ▸ h.1, h.2.congr_of_eventuallyEq (hc.mono fun _ h => h.symm)⟩
  zero := .ofVal 0
  one := .ofVal 1
  add := .add
  sub := .sub
  mul := .mul
  neg := .neg
  div := .div
  un := .un
  unb := .unb
  cmp h := h.elim
  bools := .inl fun _ _ h => h
  stat := .inl fun _ _ _ h => h
  fac h := h.elim
  powf h := h.elim
  powa h := h.elim
  pows _ _ h := h.elim

theorem real_self_related : Related (β := fun _ : Unit => ℝ) ⊤ fwdDoms (fun x c => c () = x) where
  congr {x c c'} h hc := by
    have : ∀ i, c i = c' i := by simpa using hc
    rw [← this, h]
  zero := rfl
  one := rfl
  add h1 h2 := by beta_reduce; rw [h1, h2]
  sub h1 h2 := by beta_reduce; rw [h1, h2]
  mul h1 h2 := by beta_reduce; rw [h1, h2]
  neg h := by beta_reduce; rw [h]
  div _ h1 h2 := by beta_reduce; rw [h1, h2]
  un _ h := by beta_reduce; rw [h]
  unb _ h1 h2 := by beta_reduce; rw [h1, h2]
  cmp h := h.elim
  bools := .inl fun _ _ h => h
  stat := .inl fun _ _ _ h => h
  fac h := h.elim
  powf h := h.elim
  powa h := h.elim
  pows _ _ h := h.elim

/-- the values of a run over forward variables are those of the real run -/
theorem real_dual_related : Related (β := fun _ : Unit => Dual ℝ) ⊤ fwdDoms (fun x c => (c ()).w = x) where
  congr {x c c'} h hc := by
    have : ∀ i, c i = c' i := by simpa using hc
    rw [← this, h]
  zero := rfl
  one := rfl
  add {x y c d} h1 h2 := show (c ()).w + (d ()).w = _ by rw [h1, h2]
  sub {x y c d} h1 h2 := show (c ()).w - (d ()).w = _ by rw [h1, h2]
  mul {x y c d} h1 h2 := show (c ()).w * (d ()).w = _ by rw [h1, h2]
  neg {x c} h := show -(c ()).w = _ by rw [h]
  div {x y c d} _ h1 h2 := show (c ()).w / (d ()).w = _ by rw [h1, h2]
  un {op x c} hd h := by
    obtain ⟨h1, h2, h3, h4, hd⟩ := hd
    subst h
    cases op
    case erf => exact absurd rfl h1
    case sinh => exact absurd rfl h2
    case cosh => exact absurd rfl h3
    case tanh => exact absurd rfl h4
    all_goals rfl
  unb {op x c s σ} hd h h' := by
    obtain ⟨h1, h2, h3, h4, hd⟩ := hd
    subst h h'
    cases op
    case erf => exact absurd rfl h1
    case sinh => exact absurd rfl h2
    case cosh => exact absurd rfl h3
    case tanh => exact absurd rfl h4
    all_goals rfl
  cmp h := h.elim
  bools := .inl fun _ _ h => h
  stat := .inl fun _ _ _ h => h
  fac h := h.elim
  powf h := h.elim
  powa h := h.elim
  pows _ _ h := h.elim

theorem inside_dual {e : Expr ℝ} {m : ℕ → ℝ} {M : ℕ → Dual ℝ} (hwf : e.WF) (hi : e.Inside fwdDoms m) (hM : ∀ a ∈ e.reads, (M a).w = m a) :
    (e.map Dual.ofVal).Inside dualDoms M := by
  have := related_inside (D' := fun _ => dualDoms) (fun x => x) (fun _ => Dual.ofVal) real_dual_related
    ⟨fun {op x c} h1 h2 => by simpa [dualDoms, h2] using h1, fun {x c} h1 h2 => by simpa [dualDoms, fwdDoms, h2] using h1, fun h => h.elim, fun h => h.elim, fun h => h.elim, fun h => h.elim⟩
    (fun c => rfl) (m := m) (m' := fun _ => M) e hwf (by rwa [map_id]) hM
  simpa using this

theorem inside_fwd_real {e : Expr ℝ} {m : ℕ → ℝ} (hwf : e.WF) (hi : e.Inside fwdDoms m) : e.Inside realDoms m := by
  have := related_inside (D' := fun _ => realDoms) (fun x => x) (fun _ x => x) real_self_related
    ⟨fun {op x c} h1 h2 => by simpa [realDoms, plainDoms, h2] using h1.2.2.2.2, fun {x c} h1 h2 => by simpa [realDoms, plainDoms, fwdDoms, h2] using h1, fun h => h.elim, fun h => h.elim, fun h => h.elim, fun h => h.elim⟩
    (fun c => rfl) (m := m) (m' := fun _ => m) e hwf (by rwa [map_id]) (fun _ _ => rfl)
  simpa [map_id] using this

theorem inside_fwd_plain {e : Expr ℝ} {m : ℕ → ℝ} (hwf : e.WF) (hi : e.Inside fwdDoms m) : e.Inside plainDoms m := by
  have := related_inside (D' := fun _ => plainDoms) (fun x => x) (fun _ x => x) real_self_related
    ⟨fun {op x c} h1 h2 => by simpa [plainDoms, h2] using h1.2.2.2.2, fun {x c} h1 h2 => by simpa [plainDoms, fwdDoms, h2] using h1, fun h => h.elim, fun h => h.elim, fun h => h.elim, fun h => h.elim⟩
    (fun c => rfl) (m := m) (m' := fun _ => m) e hwf (by rwa [map_id]) (fun _ _ => rfl)
  simpa [map_id] using this

theorem shift_tendsto (m u : ℕ → ℝ) (a : ℕ) : Tendsto (fun t => shift m u t a) (𝓝 0) (𝓝 (m a)) := by
  have : Continuous fun t : ℝ => m a + t * u a := by fun_prop
  simpa [shift] using this.tendsto 0

/-- what `autodiff` over forward variables does -/
structure DualOk (e : Expr ℝ) (b : Expr (Dual ℝ)) (BV BA : Set ℕ) (m u σ : ℕ → ℝ) (S S' : St (Dual ℝ)) (r : Ref (Dual ℝ)) (y : ℕ → Dual ℝ) : Prop where
  run : autodiff b (fun k => .ofVal (σ k)) S = some (S', r)
  vok : S'.vok = S.vok
  aok : S'.aok = S.aok
  val : ∀ a, a ∉ BV → S'.val a = S.val a
  other : ∀ a, a ∉ BA → a ∉ e.adjCells → S'.adj a = S.adj a
  read : r.read S' e.size = some y
  value : ∀ k < e.size, (y k).w = e.denote m k ∧ HasDerivAt (fun t => e.denote (shift m u t) k) (y k).df 0
  adj : ∀ a ∈ e.adjCells, a ∉ BA → (S'.adj a).w = (S.adj a).w + e.grad m σ a ∧
    HasDerivAt (fun t => e.grad (shift m u t) σ a) ((S'.adj a).df - (S.adj a).df) 0

theorem dual_autodiff [LawfulLinAlg] {e : Expr ℝ} {b : Expr (Dual ℝ)} {BV BA : Set ℕ} {S : St (Dual ℝ)} (hb : Bnd (e.map Dual.ofVal) b BV BA S.vok S.aok) (hwf : e.WF)
    {vok aok : ℕ → Bool} {qv qa : ℕ} (hal : e.Alive vok aok) (hf : (∀ k < e.bindSize.val, vok (qv + k) = false) ∧ ∀ k < e.bindSize.adj, aok (qa + k) = false)
    {m u : ℕ → ℝ} (hi : e.Inside fwdDoms m) (hval : ∀ c ∈ e.reads, S.val c = ⟨m c, u c⟩) (σ : ℕ → ℝ) :
    ∃ S' r y, DualOk e b BV BA m u σ S S' r y := by
  obtain ⟨S', r, h⟩ := hb.gautodiff (m := S.val) (fun _ _ => rfl) (fun k => .ofVal (σ k))
  have hin := inside_dual hwf hi (M := S.val) fun a ha => by rw [hval a ha]
  have hir := inside_fwd_real hwf hi
  have hm : ∀ a ∈ e.reads, Tan (S.val a) fun t => shift m u t a := by
    intro a ha
    rw [hval a ha]
    refine ⟨by simp [shift], ?_⟩
    simpa [shift] using ((hasDerivAt_id (0 : ℝ)).mul_const (u a)).const_add (m a)
  have h0 : shift m u 0 = m := by funext c; simp [shift]
  have hex := fun k hk => (related_exact Dual.ofVal (fun (_ : ℝ) x => x) tan_related Tan.ofVal e hwf hin hm k hk).1
  have hpo := fun k hk => related_post Dual.ofVal (fun (_ : ℝ) x => x) tan_related Tan.ofVal e hwf hin hm k hk
  simp only [map_id] at hex hpo
  have hev : ∀ᶠ t in 𝓝 (0 : ℝ), e.exact (shift m u t) = e.denote (shift m u t) :=
    (inside_near hwf hir (fun a => shift_tendsto m u a)).mono fun t ht => exact_eq_denote hwf ht
  refine ⟨S', r, _, h.run, h.vok, h.aok, h.val, fun a h1 h2 => ?_, by rw [← map_size Dual.ofVal e]; exact h.value, fun k hk => ?_, fun a ha h1 => ?_⟩
  · rw [h.adj a h1, gback_support]
    intro hx
    exact h2 (by rw [← map_adjCells Dual.ofVal e]; exact readsA_cells _ a hx)
  · rw [map_shape, map_size, trunc_of_lt hk]
    by_cases hs : e.shape.isScl = true
    · rw [if_pos hs]
      have := hex k hk
      refine ⟨?_, this.2.congr_of_eventuallyEq (hev.mono fun t ht => by simp only [ht])⟩
      rw [← this.1]; beta_reduce; rw [hev.self_of_nhds, h0]
    · rw [if_neg hs]
      have := hpo k hk
      refine ⟨?_, this.2.congr_of_eventuallyEq (.of_forall fun t => (post_real hwf hal hf _ hs hk).symm)⟩
      rw [← this.1]; beta_reduce; rw [h0, post_real hwf hal hf _ hs hk]
  · have hx : Tan (S.adj a) fun t => (S.adj a).w + t * (S.adj a).df := by
      refine ⟨by simp, ?_⟩
      simpa using ((hasDerivAt_id (0 : ℝ)).mul_const (S.adj a).df).const_add (S.adj a).w
    have hg := related_gback Dual.ofVal (fun (_ : ℝ) x => x) tan_related Tan.ofVal e hwf hin hm (fun k => .ofVal (σ k)) (fun _ => σ) (fun k _ => Tan.ofVal _) a (S.adj a) _ hx
    simp only [map_id, gback_real hwf hal hf _ σ ha] at hg
    rw [← h.adj a h1] at hg
    refine ⟨?_, ?_⟩
    · rw [← hg.1]; beta_reduce; rw [h0]; ring
    · refine (hg.2.fun_sub hx.2).congr_of_eventuallyEq (.of_forall fun t => ?_)
      ring

/-- the tangents in round `i`: 1 at `p + i` -/
def unitAt (a c : ℕ) : ℝ := if c = a then 1 else 0

theorem shift_unitAt (m : ℕ → ℝ) (a : ℕ) (t : ℝ) : shift m (unitAt a) t = Function.update m a (m a + t) := by
  funext c
  by_cases h : c = a
  · subst h; simp [shift, unitAt]
  · simp [shift, unitAt, h]

theorem hasDerivAt_of_shift {f : ℝ → ℝ} {a f' : ℝ} (h : HasDerivAt (fun t => f (a + t)) f' 0) : HasDerivAt f f' a := by
  have h1 : HasDerivAt (fun x => x - a) 1 a := (hasDerivAt_id a).sub_const a
  have h2 : HasDerivAt (fun t => f (a + t)) f' (a - a) := by rwa [sub_self]
  have := HasDerivAt.comp (h₂ := fun t => f (a + t)) (h := fun x => x - a) a h2 h1
  simpa [Function.comp_def] using this

/-- the values of the variables between the rounds -/
def HessInv (e : Expr ℝ) (p : ℕ) (m : ℕ → ℝ) (i : ℕ) (S : St (Dual ℝ)) : Prop :=
  ∀ c ∈ e.reads, S.val c = ⟨m c, if 0 < i ∧ c = p + (i - 1) then 1 else 0⟩

theorem hessRound_ok [LawfulLinAlg] {e : Expr ℝ} {b : Expr (Dual ℝ)} {BV BA : Set ℕ} {S : St (Dual ℝ)} (hb : Bnd (e.map Dual.ofVal) b BV BA S.vok S.aok) (hwf : e.WF)
    (hscl : e.shape = .scl) {vok aok : ℕ → Bool} {qv qa : ℕ} (hal : e.Alive vok aok)
    (hf : (∀ k < e.bindSize.val, vok (qv + k) = false) ∧ ∀ k < e.bindSize.adj, aok (qa + k) = false)
    {m : ℕ → ℝ} (hi : e.Inside fwdDoms m) {p q n i : ℕ} (hin : i < n) (hp : ∀ k < n, S.vok (p + k) = true) (hq : ∀ k < n, S.aok (q + k) = true) (hqB : ∀ k < n, q + k ∉ BA)
    (hinv : HessInv e p m i S) (hr : ∀ c ∈ e.reads, c ∉ BV) :
    ∃ S' g h, hessRound b p q n i S = some (S', g, h) ∧ S'.vok = S.vok ∧ S'.aok = S.aok ∧ HessInv e p m (i + 1) S' ∧
      HasDerivAt (fun x => e.denote (Function.update m (p + i) x) 0) g (m (p + i)) ∧
      (∀ j < n, q + j ∈ e.adjCells → HasDerivAt (fun x => e.grad (Function.update m (p + i) x) (fun _ => 1) (q + j)) (h j) (m (p + i))) ∧
      ∀ j < n, q + j ∉ e.adjCells → h j = 0 := by
  have hacc : accessible S.aok (some q) n := hq
  set S1 : St (Dual ℝ) := { S with adj := fillRange S.adj q n fun _ => 0 } with hS1
  have e1 : S.writeA (some q) n (fun _ => 0) = some S1 := by rw [St.writeA, if_pos hacc]; rfl
  obtain ⟨S2, e2, h2v, h2a, h2adj, h2val⟩ : ∃ S2, clearTangent S1 p i = some S2 ∧ S2.vok = S.vok ∧ S2.aok = S.aok ∧ S2.adj = S1.adj ∧
      ∀ c ∈ e.reads, S2.val c = ⟨m c, 0⟩ := by
    rw [clearTangent]
    by_cases h0 : i > 0
    · rw [if_pos h0, setTangent, if_pos (hp (i - 1) (by omega))]
      refine ⟨_, rfl, rfl, rfl, rfl, fun c hc => ?_⟩
      have := hinv c hc
      show fillRange S.val (p + (i - 1)) 1 (fun _ => ⟨(S.val (p + (i - 1))).w, 0⟩) c = _
      by_cases hcp : c = p + (i - 1)
      · subst hcp
        simp only [fillRange, le_refl, true_and, Nat.lt_succ_self, if_true, this]
      · rw [fillRange, if_neg (by omega), this, if_neg (by tauto)]
    · rw [if_neg h0]
      refine ⟨_, rfl, rfl, rfl, rfl, fun c hc => ?_⟩
      rw [show S1.val c = S.val c from rfl, hinv c hc, if_neg (by tauto)]
  set S3 : St (Dual ℝ) := { S2 with val := fillRange S2.val (p + i) 1 fun _ => ⟨(S2.val (p + i)).w, 1⟩ } with hS3
  have e3 : setTangent S2 (p + i) 1 = some S3 := by rw [setTangent, if_pos (by rw [h2v]; exact hp i hin)]
  have h3val : ∀ c ∈ e.reads, S3.val c = ⟨m c, unitAt (p + i) c⟩ := by
    intro c hc
    show fillRange S2.val (p + i) 1 (fun _ => ⟨(S2.val (p + i)).w, 1⟩) c = _
    by_cases hcp : c = p + i
    · subst hcp
      simp only [fillRange, le_refl, true_and, Nat.lt_succ_self, if_true, h2val _ hc, unitAt]
    · rw [fillRange, if_neg (by omega), h2val c hc, unitAt, if_neg hcp]
  obtain ⟨S4, r, y, h⟩ := dual_autodiff (S := S3) (by rw [show S3.vok = S.vok from h2v, show S3.aok = S.aok from h2a]; exact hb) hwf hal hf hi h3val fun _ => 1
  have hsz : e.size = 1 := by rw [Expr.size, hscl]; rfl
  have hacc4 : accessible S4.aok (some q) n := by rw [h.aok, show S3.aok = S.aok from h2a]; exact hacc
  have e4 : S4.readA (some q) n = some (trunc n fun k => S4.adj (q + k)) := by rw [St.readA, readCells, if_pos hacc4]; rfl
  have e5 : r.read S4 1 = some y := by rw [← hsz]; exact h.read
  have h3adj : ∀ j < n, S3.adj (q + j) = 0 := by
    intro j hj
    rw [show S3.adj = S1.adj from h2adj]
    show fillRange S.adj q n (fun _ => 0) (q + j) = 0
    rw [fillRange, if_pos (by omega)]
  have hval := h.value 0 (by omega)
  refine ⟨S4, (y 0).df, fun j => (trunc n (fun k => S4.adj (q + k)) j).df, ?_, h.vok.trans h2v, h.aok.trans h2a, fun c hc => ?_, ?_, fun j hj ha => ?_, fun j hj ha => ?_⟩
  · have e6 : autodiff b (fun _ => 1) S3 = some (S4, r) := h.run
    simp only [hessRound, e1, Option.bind_eq_bind, Option.bind_some]
    simp only [e2, Option.bind_some, e3, e6, e5, e4]
  · rw [h.val c (hr c hc), h3val c hc, unitAt]
    simp
  · refine hasDerivAt_of_shift ?_
    simpa only [shift_unitAt] using hval.2
  · refine hasDerivAt_of_shift ?_
    have := (h.adj _ ha (hqB j hj)).2
    rw [h3adj j hj] at this
    beta_reduce
    rw [trunc_of_lt hj]
    simpa only [shift_unitAt, show (0 : Dual ℝ).df = 0 from rfl, sub_zero] using this
  · beta_reduce
    rw [trunc_of_lt hj, h.other _ (hqB j hj) ha, h3adj j hj]
    rfl

theorem hessLoop_ok [LawfulLinAlg] {e : Expr ℝ} {b : Expr (Dual ℝ)} {BV BA : Set ℕ} (hwf : e.WF)
    (hscl : e.shape = .scl) {vok aok : ℕ → Bool} {qv qa : ℕ} (hal : e.Alive vok aok)
    (hf : (∀ k < e.bindSize.val, vok (qv + k) = false) ∧ ∀ k < e.bindSize.adj, aok (qa + k) = false)
    {m : ℕ → ℝ} (hi : e.Inside fwdDoms m) {p q n : ℕ} (hqB : ∀ k < n, q + k ∉ BA) (hr : ∀ c ∈ e.reads, c ∉ BV) (k : ℕ) : ∀ (i : ℕ) (S : St (Dual ℝ)), i + k ≤ n →
    Bnd (e.map Dual.ofVal) b BV BA S.vok S.aok → (∀ k < n, S.vok (p + k) = true) → (∀ k < n, S.aok (q + k) = true) → HessInv e p m i S →
    ∃ S' out, hessLoop b p q n i k S = some (S', out) ∧ out.length = k ∧ ∀ t (ht : t < out.length),
      HasDerivAt (fun x => e.denote (Function.update m (p + (i + t)) x) 0) (out[t]).1 (m (p + (i + t))) ∧
      (∀ j < n, q + j ∈ e.adjCells → HasDerivAt (fun x => e.grad (Function.update m (p + (i + t)) x) (fun _ => 1) (q + j)) ((out[t]).2 j) (m (p + (i + t)))) ∧
      ∀ j < n, q + j ∉ e.adjCells → (out[t]).2 j = 0 := by
  induction k with
  | zero => exact fun i S _ _ _ _ _ => ⟨S, [], rfl, rfl, fun t ht => absurd ht (by simp)⟩
  | succ k ih =>
    intro i S hn hb hp hq hinv
    obtain ⟨S1, g, h, e1, v1, a1, i1, h1⟩ := hessRound_ok hb hwf hscl hal hf hi (by omega) hp hq hqB hinv hr
    obtain ⟨S2, out, e2, hl, h2⟩ := ih (i + 1) S1 (by omega) (by rw [v1, a1]; exact hb) (by rw [v1]; exact hp) (by rw [a1]; exact hq) i1
    refine ⟨S2, (g, h) :: out, ?_, by simp [hl], fun t ht => ?_⟩
    · simp only [hessLoop, e1, e2, Option.bind_eq_bind, Option.bind_some]
    · cases t with
      | zero => exact h1
      | succ t =>
        have := h2 t (by simpa using ht)
        rw [show i + 1 + t = i + (t + 1) by omega] at this
        exact this

end FastAD
