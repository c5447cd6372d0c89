import Verif.Spec.Objects
import Verif.Proof.Session

/-!
# Invariant of `ExprBind` objects
-/

namespace FastAD

variable [HasInf ℝ] [LinAlg ℝ]
set_option linter.unusedSectionVars false

/-- a bound expression using only the user's memory and its own block -/
def MinBnd (uv ua : ℕ → Bool) (e b : Expr ℝ) (qv qa : ℕ) : Prop :=
  Bnd e b (blockV qv e.bindSize) (blockA qa e.bindSize)
    (fun a => uv a || (decide (qv ≤ a) && decide (a < qv + e.bindSize.val)))
    (fun a => ua a || (decide (qa ≤ a) && decide (a < qa + e.bindSize.adj)))

/-- object `i` owns the cache of `p` and is in order -/
def OwnerOk (uv ua : ℕ → Bool) (s : St ℝ) (objs : ℕ → Option Shared) (obj : ℕ → Option (ExprObj ℝ)) (c i : ℕ) (p : Expr ℝ × Option (ℕ → ℝ)) : Prop :=
  ∃ x b, objs i = some (.on c true) ∧ obj i = some x ∧ x.expr = some b ∧ x.n = p.1.bindSize ∧
    MinBnd uv ua p.1 b x.qv x.qa ∧ ObjOk uv ua s ⟨p.1, b, x.qv, x.qa⟩ p

/-- the memory of the objects -/
structure Regs (uv ua : ℕ → Bool) (s : St ℝ) (obj : ℕ → Option (ExprObj ℝ)) : Prop where
  regV : ∀ i x, obj i = some x → ∀ a ∈ blockV x.qv x.n, s.vok a = true ∧ uv a = false
  regA : ∀ i x, obj i = some x → ∀ a ∈ blockA x.qa x.n, s.aok a = true ∧ ua a = false
  disjV : ∀ i j x y, i ≠ j → obj i = some x → obj j = some y → Disjoint (blockV x.qv x.n) (blockV y.qv y.n)
  disjA : ∀ i j x y, i ≠ j → obj i = some x → obj j = some y → Disjoint (blockA x.qa x.n) (blockA y.qa y.n)
  onlyV : ∀ a, s.vok a = true → uv a = true ∨ ∃ i x, obj i = some x ∧ a ∈ blockV x.qv x.n
  onlyA : ∀ a, s.aok a = true → ua a = true ∨ ∃ i x, obj i = some x ∧ a ∈ blockA x.qa x.n

/-- the user's memory -/
structure Mine (uv ua : ℕ → Bool) (adj0 : ℕ → ℝ) (vals : ℕ → ℝ) (log : List (Event ℝ)) (s : St ℝ) : Prop where
  vok : ∀ a, uv a = true → s.vok a = true
  aok : ∀ a, ua a = true → s.aok a = true
  val : ∀ a, uv a = true → s.val a = vals a
  adj : ∀ a, ua a = true → s.adj a = replayAdj Expr.grad a (adj0 a) log

/-- which objects work on which caches -/
structure Works (next : ℕ) (cache : ℕ → Option (Expr ℝ × Option (ℕ → ℝ))) (objs : ℕ → Option Shared) (obj : ℕ → Option (ExprObj ℝ)) : Prop where
  dom : ∀ i, objs i = none → obj i = none
  movd : ∀ i, objs i = some .moved → ∃ x, obj i = some x
  on : ∀ i c o, objs i = some (.on c o) → c < next ∧ ∃ x b, obj i = some x ∧ x.expr = some b
  same : ∀ i j c o o' x y, objs i = some (.on c o) → objs j = some (.on c o') → obj i = some x → obj j = some y → x.expr = y.expr
  new : ∀ c, next ≤ c → cache c = none

/-- the invariant -/
structure OInv (uv ua : ℕ → Bool) (adj0 : ℕ → ℝ) (u : Sharing ℝ) (w : Objects ℝ) : Prop where
  regs : Regs uv ua w.st w.obj
  works : Works u.next u.cache u.objs w.obj
  owner : ∀ c p, u.cache c = some p → ∃ i, OwnerOk uv ua w.st u.objs w.obj c i p
  mine : Mine uv ua adj0 u.vals u.log w.st

theorem OInv.init (s : St ℝ) : OInv s.vok s.aok s.adj (Sharing.init s.val) ⟨s, fun _ => none⟩ where
  regs := ⟨fun _ _ h => (by cases h), fun _ _ h => (by cases h), fun _ _ _ _ _ h => (by cases h), fun _ _ _ _ _ h => (by cases h),
    fun _ h => .inl h, fun _ h => .inl h⟩
  works := ⟨fun _ _ => rfl, fun _ h => (by cases h), fun _ _ _ h => (by cases h), fun _ _ _ _ _ _ _ h => (by cases h), fun _ _ => rfl⟩
  owner := fun c p h => by cases h
  mine := ⟨fun _ h => h, fun _ h => h, fun _ _ => rfl, fun _ _ => rfl⟩

theorem setAt_same {β : Type} (f : ℕ → β) (i : ℕ) (x : β) : setAt f i x i = x := if_pos rfl

theorem setAt_ne {β : Type} (f : ℕ → β) {i j : ℕ} (h : j ≠ i) (x : β) : setAt f i x j = f j := if_neg h

theorem Regs.congr {uv ua : ℕ → Bool} {s s' : St ℝ} {obj : ℕ → Option (ExprObj ℝ)} (h : Regs uv ua s obj)
    (hv : s'.vok = s.vok) (ha : s'.aok = s.aok) : Regs uv ua s' obj := by
  obtain ⟨a, b, c, d, e, f⟩ := h
  exact ⟨by rw [hv]; exact a, by rw [ha]; exact b, c, d, by rw [hv]; exact e, by rw [ha]; exact f⟩

theorem mem_blockV {q : ℕ} {n : SizePack} {a : ℕ} : a ∈ blockV q n ↔ q ≤ a ∧ a < q + n.val := by
  simp [blockV, mem_rng, addr_some]

theorem mem_blockA {q : ℕ} {n : SizePack} {a : ℕ} : a ∈ blockA q n ↔ q ≤ a ∧ a < q + n.adj := by
  simp [blockA, mem_rng, addr_some]

/-- the object that owns the cache of a usable object holds the same expression -/
theorem OInv.use {uv ua : ℕ → Bool} {adj0 : ℕ → ℝ} {u : Sharing ℝ} {w : Objects ℝ} (h : OInv uv ua adj0 u w) {i : ℕ}
    {p : Expr ℝ × Option (ℕ → ℝ)} (hp : u.view i = some p) :
    ∃ c o k x y b, u.objs i = some (.on c o) ∧ u.cache c = some p ∧ w.obj i = some x ∧ x.expr = some b ∧
      u.objs k = some (.on c true) ∧ w.obj k = some y ∧ y.expr = some b ∧ y.n = p.1.bindSize ∧
      MinBnd uv ua p.1 b y.qv y.qa ∧ ObjOk uv ua w.st ⟨p.1, b, y.qv, y.qa⟩ p := by
  unfold Sharing.view at hp
  split at hp
  · rename_i c o ho
    obtain ⟨k, y, b, h1, h2, h3, h4, h6, h5⟩ := h.owner c p hp
    obtain ⟨-, x, b', hx, hb'⟩ := h.works.on i c o ho
    have := h.works.same i k c o true x y ho h1 hx h2
    rw [hb', h3] at this
    obtain rfl := Option.some.inj this
    exact ⟨c, o, k, x, y, b', ho, hp, hx, hb', h1, h2, h3, h4, h6, h5⟩
  · cases hp

/-- a step that changes values only in the block of the owner `k` of cache `c` -/
theorem OInv.frame {uv ua : ℕ → Bool} {adj0 : ℕ → ℝ} {u : Sharing ℝ} {w : Objects ℝ} (h : OInv uv ua adj0 u w) {c k : ℕ} {y : ExprObj ℝ}
    (hk : u.objs k = some (.on c true)) (hy : w.obj k = some y) {s' : St ℝ} (hv : s'.vok = w.st.vok) (ha : s'.aok = w.st.aok)
    (hfr : ∀ a, a ∉ blockV y.qv y.n → s'.val a = w.st.val a) {d : ℕ} {p : Expr ℝ × Option (ℕ → ℝ)} (hdc : d ≠ c) (hp : u.cache d = some p) :
    ∃ i, OwnerOk uv ua s' u.objs w.obj d i p := by
  obtain ⟨i, x, b, h1, h2, h3, h4, h6, h5⟩ := h.owner d p hp
  refine ⟨i, x, b, h1, h2, h3, h4, h6, h5.congr hv ha fun a haB => hfr a fun hb => ?_⟩
  have hik : i ≠ k := by
    rintro rfl
    rw [h1] at hk
    cases hk
    exact hdc rfl
  have : a ∈ blockV x.qv x.n := by rw [h4]; exact haB
  exact Set.disjoint_left.1 (h.regs.disjV i k x y hik h2 hy) this hb

/-- after an evaluation the object's cache belongs to the current values -/
theorem ObjOk.evaluated {uv ua : ℕ → Bool} {s s' : St ℝ} {o : BoundObj ℝ} {p : Expr ℝ × Option (ℕ → ℝ)} (ho : ObjOk uv ua s o p) {vals : ℕ → ℝ}
    (hval : ∀ a, uv a = true → s.val a = vals a) (hv : s'.vok = s.vok) (ha : s'.aok = s.aok)
    (hfr : ∀ a, a ∉ o.BV → s'.val a = s.val a) (hc : o.bound.Cached vals s'.val) : ObjOk uv ua s' o (p.1, some vals) := by
  refine ⟨ho.src, ?_, ho.alive, ?_, ?_, ?_⟩
  · rw [hv, ha]; exact ho.bnd
  · rw [hv]; exact ho.bv
  · rw [ha]; exact ho.ba
  · intro m hm
    obtain rfl : vals = m := Option.some.inj hm
    refine ⟨s'.val, hc, fun _ _ => rfl, fun a har => ?_⟩
    rw [hfr a ?_, hval a (reads_alive ho.alive a har)]
    intro hb
    have := (ho.bv a hb).2
    rw [reads_alive ho.alive a har] at this
    cases this

/-- an evaluation through object `i` -/
theorem OInv.evaluated {uv ua : ℕ → Bool} {adj0 : ℕ → ℝ} {u : Sharing ℝ} {w : Objects ℝ} (h : OInv uv ua adj0 u w) {i c k : ℕ} {o : Bool}
    {y : ExprObj ℝ} {b : Expr ℝ} {p : Expr ℝ × Option (ℕ → ℝ)} (hi : u.objs i = some (.on c o)) (hc : u.cache c = some p)
    (hk : u.objs k = some (.on c true)) (hy : w.obj k = some y) (hyb : y.expr = some b) (hn : y.n = p.1.bindSize)
    (hmin : MinBnd uv ua p.1 b y.qv y.qa) (ho : ObjOk uv ua w.st ⟨p.1, b, y.qv, y.qa⟩ p) {s' : St ℝ} (hv : s'.vok = w.st.vok) (ha : s'.aok = w.st.aok)
    (hfr : ∀ a, a ∉ blockV y.qv y.n → s'.val a = w.st.val a) (hcach : b.Cached u.vals s'.val) (log : List (Event ℝ))
    (hadj : ∀ a, ua a = true → s'.adj a = replayAdj Expr.grad a (adj0 a) log) :
    OInv uv ua adj0 { u.evaluated i p.1 with log := log } { w with st := s' } := by
  have hu : u.evaluated i p.1 = { u with cache := Function.update u.cache c (some (p.1, some u.vals)) } := by
    unfold Sharing.evaluated
    rw [hi]
  rw [hu]
  refine ⟨h.regs.congr hv ha, ⟨h.works.dom, h.works.movd, h.works.on, h.works.same, fun d hd => ?_⟩, fun d q hq => ?_, ?_⟩
  · have : d ≠ c := by
      rintro rfl
      rw [h.works.new d hd] at hc; cases hc
    simp only [Function.update_of_ne this]
    exact h.works.new d hd
  · by_cases hdc : d = c
    · subst hdc
      simp only [Function.update_self, Option.some.injEq] at hq
      subst hq
      refine ⟨k, y, b, hk, hy, hyb, hn, hmin, ho.evaluated h.mine.val hv ha (fun a ha => hfr a ?_) hcach⟩
      rw [hn]; exact ha
    · simp only [Function.update_of_ne hdc] at hq
      exact h.frame hk hy hv ha hfr hdc hq
  · refine ⟨fun a h' => hv ▸ h.mine.vok a h', fun a h' => ha ▸ h.mine.aok a h', fun a h' => ?_, hadj⟩
    rw [hfr a fun hb => ?_]
    · exact h.mine.val a h'
    · have := (h.regs.regV k y hy a hb).2
      rw [h'] at this; cases this

/-- memory of the user and of the living blocks is not affected by obtaining unused memory -/
theorem allocate_frame {s : St ℝ} {n : SizePack} {qv qa : ℕ} {jv ja : ℕ → ℝ} (hf : Fresh s n qv qa) :
    (∀ a, s.vok a = true → (s.allocate n qv qa jv ja).vok a = true ∧ (s.allocate n qv qa jv ja).val a = s.val a) ∧
    (∀ a, s.aok a = true → (s.allocate n qv qa jv ja).aok a = true ∧ (s.allocate n qv qa jv ja).adj a = s.adj a) := by
  constructor
  · intro a h
    refine ⟨by simp [St.allocate, h], if_neg ?_⟩
    rintro ⟨h1, h2⟩
    have := hf.1 (a - qv) (by omega)
    rw [Nat.add_sub_cancel' h1, h] at this
    cases this
  · intro a h
    refine ⟨by simp [St.allocate, h], if_neg ?_⟩
    rintro ⟨h1, h2⟩
    have := hf.2 (a - qa) (by omega)
    rw [Nat.add_sub_cancel' h1, h] at this
    cases this

/-- an object stays in order when its block and the user's memory stay -/
theorem OwnerOk.keep {uv ua : ℕ → Bool} {s s' : St ℝ} {objs objs' : ℕ → Option Shared} {obj obj' : ℕ → Option (ExprObj ℝ)} {c i k : ℕ}
    {p : Expr ℝ × Option (ℕ → ℝ)} (h : OwnerOk uv ua s objs obj c i p)
    (hobj : ∀ x, objs i = some (.on c true) → obj i = some x → objs' k = some (.on c true) ∧ ∃ y, obj' k = some y ∧ y.expr = x.expr ∧ y.qv = x.qv ∧ y.qa = x.qa ∧ y.n = x.n)
    (hv : ∀ a, uv a = true → s'.vok a = true) (ha : ∀ a, ua a = true → s'.aok a = true)
    (hbv : ∀ x, obj i = some x → ∀ a ∈ blockV x.qv x.n, s'.vok a = true ∧ s'.val a = s.val a)
    (hba : ∀ x, obj i = some x → ∀ a ∈ blockA x.qa x.n, s'.aok a = true) :
    OwnerOk uv ua s' objs' obj' c k p := by
  obtain ⟨x, b, h1, h2, h3, h4, h5, h6⟩ := h
  obtain ⟨g1, y, g2, g3, g4, g5, g6⟩ := hobj x h1 h2
  have hbv' := hbv x h2
  have hba' := hba x h2
  rw [h4] at hbv' hba'
  refine ⟨y, b, g1, g2, g3.trans h3, g6.trans h4, by rw [g4, g5]; exact h5, ?_⟩
  rw [g4, g5]
  refine ⟨h6.src, h5.mono ?_ ?_, h6.alive, fun a h => ⟨(hbv' a h).1, (h6.bv a h).2⟩, fun a h => ⟨hba' a h, (h6.ba a h).2⟩, fun m hm => ?_⟩
  · intro a h
    rcases Bool.or_eq_true _ _ ▸ h with h | h
    · exact hv a h
    · exact (hbv' a (mem_blockV.2 (by simpa using h))).1
  · intro a h
    rcases Bool.or_eq_true _ _ ▸ h with h | h
    · exact ha a h
    · exact hba' a (mem_blockA.2 (by simpa using h))
  · obtain ⟨g, hg, k1, k2⟩ := h6.cached m hm
    exact ⟨g, hg, fun a h => (hbv' a h).2.trans (k1 a h), k2⟩

/-- obtaining a block for a new object -/
theorem Regs.alloc {uv ua : ℕ → Bool} {s : St ℝ} {obj : ℕ → Option (ExprObj ℝ)} (h : Regs uv ua s obj) (hv : ∀ a, uv a = true → s.vok a = true)
    (ha : ∀ a, ua a = true → s.aok a = true) {i : ℕ} {e : Option (Expr ℝ)} {n : SizePack}
    {qv qa : ℕ} (jv ja : ℕ → ℝ) (hf : Fresh s n qv qa) (hi : obj i = none) : Regs uv ua (s.allocate n qv qa jv ja) (setAt obj i (some ⟨e, qv, qa, n⟩)) := by
  have hnv : ∀ a ∈ blockV qv n, s.vok a = false := by
    intro a ha
    obtain ⟨k, hk, rfl⟩ := mem_rng_iff.1 ha
    exact hf.1 k hk
  have hna : ∀ a ∈ blockA qa n, s.aok a = false := by
    intro a ha
    obtain ⟨k, hk, rfl⟩ := mem_rng_iff.1 ha
    exact hf.2 k hk
  have hfr := allocate_frame (jv := jv) (ja := ja) hf
  have dV : ∀ j y, obj j = some y → Disjoint (blockV qv n) (blockV y.qv y.n) := fun j y hj => Set.disjoint_left.2 fun a h1 h2 => by
    have := (h.regV j y hj a h2).1
    rw [hnv a h1] at this; cases this
  have dA : ∀ j y, obj j = some y → Disjoint (blockA qa n) (blockA y.qa y.n) := fun j y hj => Set.disjoint_left.2 fun a h1 h2 => by
    have := (h.regA j y hj a h2).1
    rw [hna a h1] at this; cases this
  refine ⟨fun j x hj a hm => ?_, fun j x hj a hm => ?_, fun j k x y hjk hx hy => ?_, fun j k x y hjk hx hy => ?_, fun a hm => ?_, fun a hm => ?_⟩
  · by_cases hji : j = i
    · subst hji
      rw [setAt_same] at hj
      cases hj
      have := mem_blockV.1 hm
      refine ⟨by simp [St.allocate, this], ?_⟩
      have := hnv a hm
      by_contra hc
      rw [hv a (by simpa using hc)] at this
      cases this
    · rw [setAt_ne _ hji] at hj
      have := h.regV j x hj a hm
      exact ⟨(hfr.1 a this.1).1, this.2⟩
  · by_cases hji : j = i
    · subst hji
      rw [setAt_same] at hj
      cases hj
      have := mem_blockA.1 hm
      refine ⟨by simp [St.allocate, this], ?_⟩
      have := hna a hm
      by_contra hc
      rw [ha a (by simpa using hc)] at this
      cases this
    · rw [setAt_ne _ hji] at hj
      have := h.regA j x hj a hm
      exact ⟨(hfr.2 a this.1).1, this.2⟩
  · by_cases hji : j = i
    · subst hji
      rw [setAt_same] at hx
      cases hx
      rw [setAt_ne _ (Ne.symm hjk)] at hy
      exact dV k y hy
    · rw [setAt_ne _ hji] at hx
      by_cases hki : k = i
      · subst hki
        rw [setAt_same] at hy
        cases hy
        exact (dV j x hx).symm
      · rw [setAt_ne _ hki] at hy
        exact h.disjV j k x y hjk hx hy
  · by_cases hji : j = i
    · subst hji
      rw [setAt_same] at hx
      cases hx
      rw [setAt_ne _ (Ne.symm hjk)] at hy
      exact dA k y hy
    · rw [setAt_ne _ hji] at hx
      by_cases hki : k = i
      · subst hki
        rw [setAt_same] at hy
        cases hy
        exact (dA j x hx).symm
      · rw [setAt_ne _ hki] at hy
        exact h.disjA j k x y hjk hx hy
  · by_cases hb : a ∈ blockV qv n
    · exact .inr ⟨i, _, setAt_same _ _ _, hb⟩
    · rw [mem_blockV] at hb
      simp only [St.allocate, Bool.or_eq_true, Bool.and_eq_true, decide_eq_true_eq] at hm
      refine (h.onlyV a (hm.resolve_right hb)).imp_right fun ⟨k, y, hk, hm⟩ => ⟨k, y, ?_, hm⟩
      rw [setAt_ne _ (by rintro rfl; rw [hi] at hk; cases hk)]; exact hk
  · by_cases hb : a ∈ blockA qa n
    · exact .inr ⟨i, _, setAt_same _ _ _, hb⟩
    · rw [mem_blockA] at hb
      simp only [St.allocate, Bool.or_eq_true, Bool.and_eq_true, decide_eq_true_eq] at hm
      refine (h.onlyA a (hm.resolve_right hb)).imp_right fun ⟨k, y, hk, hm⟩ => ⟨k, y, ?_, hm⟩
      rw [setAt_ne _ (by rintro rfl; rw [hi] at hk; cases hk)]; exact hk

theorem Mine.alloc {uv ua : ℕ → Bool} {adj0 vals : ℕ → ℝ} {log : List (Event ℝ)} {s : St ℝ} (h : Mine uv ua adj0 vals log s) {n : SizePack} {qv qa : ℕ}
    (jv ja : ℕ → ℝ) (hf : Fresh s n qv qa) : Mine uv ua adj0 vals log (s.allocate n qv qa jv ja) := by
  have hfr := allocate_frame (jv := jv) (ja := ja) hf
  exact ⟨fun a ha => (hfr.1 a (h.vok a ha)).1, fun a ha => (hfr.2 a (h.aok a ha)).1,
    fun a ha => (hfr.1 a (h.vok a ha)).2.trans (h.val a ha), fun a ha => (hfr.2 a (h.aok a ha)).2.trans (h.adj a ha)⟩

/-- binding gives an expression that uses only the user's memory and its own block -/
theorem minBnd_bind {uv ua : ℕ → Bool} {s : St ℝ} (hv : ∀ a, uv a = true → s.vok a = true) (ha : ∀ a, ua a = true → s.aok a = true)
    {e : Expr ℝ} (hwf : e.WF) (hal : e.Alive uv ua) {qv qa : ℕ} (hf : Fresh s e.bindSize qv qa) :
    MinBnd uv ua e (e.bind ⟨vecData qv e.bindSize.val, vecData qa e.bindSize.adj⟩).1 qv qa := by
  have hf' : Fresh (⟨s.val, s.adj, uv, ua⟩ : St ℝ) e.bindSize qv qa := by
    refine ⟨fun k hk => ?_, fun k hk => ?_⟩
    · have := hf.1 k hk
      by_contra hc
      rw [hv (qv + k) (by simpa using hc)] at this
      cases this
    · have := hf.2 k hk
      by_contra hc
      rw [ha (qa + k) (by simpa using hc)] at this
      cases this
  exact bindExpr_bnd (s := ⟨s.val, s.adj, uv, ua⟩) (jv := fun _ => 0) (ja := fun _ => 0) hwf hal hf'

/-- every legal step is defined and preserves the invariant -/
theorem OInv.step {uv ua : ℕ → Bool} {adj0 : ℕ → ℝ} {u u' : Sharing ℝ} {w : Objects ℝ} (h : OInv uv ua adj0 u w) (c : ObjCall ℝ)
    (hc : MemLegal uv ua u.vals u.view w c) (hu : u.step c = some u') : ∃ w', w.step c = some w' ∧ OInv uv ua adj0 u' w' := by
  cases c with
  | bind i e qv qa jv ja =>
    obtain ⟨hwf, hal, hf⟩ := hc
    have hi : u.objs i = none := by
      simp only [Sharing.step] at hu
      split at hu
      · assumption
      · cases hu
    simp only [Sharing.step, hi, Option.some.injEq] at hu
    subst hu
    have hwi := h.works.dom i hi
    have hfr := allocate_frame (jv := jv) (ja := ja) hf
    have hmin := minBnd_bind h.mine.vok h.mine.aok hwf hal hf
    refine ⟨_, rfl, h.regs.alloc h.mine.vok h.mine.aok jv ja hf hwi, ⟨?_, ?_, ?_, ?_, ?_⟩, ?_, h.mine.alloc jv ja hf⟩ <;> try dsimp only
    · intro j hj
      by_cases hji : j = i
      · subst hji; simp at hj
      · simp only [Function.update_of_ne hji] at hj
        rw [setAt_ne _ hji]; exact h.works.dom j hj
    · intro j hj
      by_cases hji : j = i
      · subst hji; simp at hj
      · simp only [Function.update_of_ne hji] at hj
        rw [setAt_ne _ hji]; exact h.works.movd j hj
    · intro j c o hj
      by_cases hji : j = i
      · subst hji
        simp only [Function.update_self, Option.some.injEq, Shared.on.injEq] at hj
        refine ⟨by show c < u.next + 1; omega, ?_⟩
        rw [setAt_same]
        exact ⟨_, _, rfl, rfl⟩
      · simp only [Function.update_of_ne hji] at hj
        rw [setAt_ne _ hji]
        obtain ⟨h1, h2⟩ := h.works.on j c o hj
        exact ⟨Nat.lt_succ_of_lt h1, h2⟩
    · intro j k c o o' x y hj hk hx hy
      by_cases hji : j = i
      · subst hji
        simp only [Function.update_self, Option.some.injEq, Shared.on.injEq] at hj
        by_cases hki : k = j
        · subst hki
          rw [hx] at hy
          exact congrArg _ (Option.some.inj hy)
        · simp only [Function.update_of_ne hki] at hk
          have := (h.works.on k c o' hk).1
          omega
      · simp only [Function.update_of_ne hji] at hj
        rw [setAt_ne _ hji] at hx
        by_cases hki : k = i
        · subst hki
          simp only [Function.update_self, Option.some.injEq, Shared.on.injEq] at hk
          have := (h.works.on j c o hj).1
          omega
        · simp only [Function.update_of_ne hki] at hk
          rw [setAt_ne _ hki] at hy
          exact h.works.same j k c o o' x y hj hk hx hy
    · intro c hc
      replace hc : u.next + 1 ≤ c := hc
      rw [Function.update_of_ne (by omega)]
      exact h.works.new c (by omega)
    · intro c p hp
      by_cases hcn : c = u.next
      · subst hcn
        simp only [Function.update_self, Option.some.injEq] at hp
        subst hp
        refine ⟨i, _, _, Function.update_self .., setAt_same _ _ _, rfl, rfl, hmin, rfl, ?_, hal, ?_, ?_, fun m hm => by cases hm⟩
        · refine hmin.mono ?_ ?_
          · intro a ha
            rcases Bool.or_eq_true _ _ ▸ ha with ha | ha
            · exact (hfr.1 a (h.mine.vok a ha)).1
            · show (_ || _) = true
              rw [ha, Bool.or_true]
          · intro a ha
            rcases Bool.or_eq_true _ _ ▸ ha with ha | ha
            · exact (hfr.2 a (h.mine.aok a ha)).1
            · show (_ || _) = true
              rw [ha, Bool.or_true]
        · exact (h.regs.alloc (e := none) h.mine.vok h.mine.aok jv ja hf hwi).regV i _ (setAt_same _ _ _)
        · exact (h.regs.alloc (e := none) h.mine.vok h.mine.aok jv ja hf hwi).regA i _ (setAt_same _ _ _)
      · simp only [Function.update_of_ne hcn] at hp
        obtain ⟨k, hk⟩ := h.owner c p hp
        refine ⟨k, hk.keep (k := k) (fun x h1 h2 => ?_) (fun a ha => (hfr.1 a (h.mine.vok a ha)).1) (fun a ha => (hfr.2 a (h.mine.aok a ha)).1)
          (fun x hx a ha => hfr.1 a (h.regs.regV k x hx a ha).1) (fun x hx a ha => (hfr.2 a (h.regs.regA k x hx a ha).1).1)⟩
        have hki : k ≠ i := by rintro rfl; rw [hi] at h1; cases h1
        exact ⟨by rw [Function.update_of_ne hki]; exact h1, x, by rw [setAt_ne _ hki]; exact h2, rfl, rfl, rfl, rfl⟩
  | copy i j qv qa =>
    simp only [Sharing.step] at hu
    split at hu
    · rename_i c o hi hj
      cases hu
      obtain ⟨hcn, x, b, hx, hb⟩ := h.works.on j c o hj
      have hf : Fresh w.st x.n qv qa := hc x hx
      have hfr := allocate_frame (jv := fun k => w.st.val (x.qv + k)) (ja := fun k => w.st.adj (x.qa + k)) hf
      refine ⟨⟨w.st.allocate x.n qv qa (fun k => w.st.val (x.qv + k)) (fun k => w.st.adj (x.qa + k)), setAt w.obj i (some ⟨some b, qv, qa, x.n⟩)⟩,
        by simp [Objects.step, hx, hb], h.regs.alloc h.mine.vok h.mine.aok _ _ hf (h.works.dom i hi), ⟨?_, ?_, ?_, ?_, h.works.new⟩, ?_, h.mine.alloc _ _ hf⟩ <;> try dsimp only
      · intro k hk
        by_cases hki : k = i
        · subst hki; simp at hk
        · simp only [Function.update_of_ne hki] at hk
          rw [setAt_ne _ hki]; exact h.works.dom k hk
      · intro k hk
        by_cases hki : k = i
        · subst hki; simp at hk
        · simp only [Function.update_of_ne hki] at hk
          rw [setAt_ne _ hki]; exact h.works.movd k hk
      · intro k d o' hk
        by_cases hki : k = i
        · subst hki
          simp only [Function.update_self, Option.some.injEq, Shared.on.injEq] at hk
          refine ⟨hk.1 ▸ hcn, ?_⟩
          rw [setAt_same]
          exact ⟨_, _, rfl, rfl⟩
        · simp only [Function.update_of_ne hki] at hk
          rw [setAt_ne _ hki]
          exact h.works.on k d o' hk
      · have key : ∀ k d o' y, Function.update u.objs i (some (Shared.on c false)) k = some (.on d o') →
            setAt w.obj i (some ⟨some b, qv, qa, x.n⟩) k = some y →
            ∃ k' o'' y', u.objs k' = some (.on d o'') ∧ w.obj k' = some y' ∧ y'.expr = y.expr := by
          intro k d o' y hk hy
          by_cases hki : k = i
          · subst hki
            rw [Function.update_self] at hk
            rw [setAt_same] at hy
            cases hk
            cases hy
            exact ⟨j, o, x, hj, hx, hb⟩
          · rw [Function.update_of_ne hki] at hk
            rw [setAt_ne _ hki] at hy
            exact ⟨k, o', y, hk, hy, rfl⟩
        intro k l d o' o'' y z hk hl hy hz
        obtain ⟨k', q1, y', a1, a2, a3⟩ := key k d o' y hk hy
        obtain ⟨l', q2, z', b1, b2, b3⟩ := key l d o'' z hl hz
        rw [← a3, ← b3]
        exact h.works.same k' l' d q1 q2 y' z' a1 b1 a2 b2
      · intro d p hp
        obtain ⟨k, hk⟩ := h.owner d p hp
        refine ⟨k, hk.keep (k := k) (fun x h1 h2 => ?_) (fun a ha => (hfr.1 a (h.mine.vok a ha)).1) (fun a ha => (hfr.2 a (h.mine.aok a ha)).1)
          (fun x hx a ha => hfr.1 a (h.regs.regV k x hx a ha).1) (fun x hx a ha => (hfr.2 a (h.regs.regA k x hx a ha).1).1)⟩
        have hki : k ≠ i := by rintro rfl; rw [hi] at h1; cases h1
        exact ⟨by rw [Function.update_of_ne hki]; exact h1, x, by rw [setAt_ne _ hki]; exact h2, rfl, rfl, rfl, rfl⟩
    · cases hu
  | move i j =>
    simp only [Sharing.step] at hu
    split at hu
    · rename_i c o hi hj
      cases hu
      obtain ⟨hcn, x, b, hx, hb⟩ := h.works.on j c o hj
      have hij : i ≠ j := by rintro rfl; rw [hi] at hj; cases hj
      -- where the objects come from
      have key : ∀ k y, setAt (setAt w.obj j (some ⟨none, 0, 0, ⟨0, 0⟩⟩)) i (some ⟨some b, x.qv, x.qa, x.n⟩) k = some y →
          (k = j ∧ y.n = ⟨0, 0⟩) ∨ (k = i ∧ y.expr = x.expr ∧ y.qv = x.qv ∧ y.qa = x.qa ∧ y.n = x.n) ∨ (k ≠ i ∧ k ≠ j ∧ w.obj k = some y) := by
        intro k y hy
        by_cases hki : k = i
        · subst hki
          rw [setAt_same] at hy
          cases hy
          exact .inr (.inl ⟨rfl, hb.symm, rfl, rfl, rfl⟩)
        · rw [setAt_ne _ hki] at hy
          by_cases hkj : k = j
          · subst hkj
            rw [setAt_same] at hy
            cases hy
            exact .inl ⟨rfl, rfl⟩
          · rw [setAt_ne _ hkj] at hy
            exact .inr (.inr ⟨hki, hkj, hy⟩)
      have hsub : ∀ k y, setAt (setAt w.obj j (some ⟨none, 0, 0, ⟨0, 0⟩⟩)) i (some ⟨some b, x.qv, x.qa, x.n⟩) k = some y →
          (blockV y.qv y.n = ∅ ∧ blockA y.qa y.n = ∅) ∨ ∃ z, w.obj (if k = i then j else k) = some z ∧ (k = i ∨ k ≠ j) ∧
            blockV y.qv y.n = blockV z.qv z.n ∧ blockA y.qa y.n = blockA z.qa z.n := by
        intro k y hy
        rcases key k y hy with ⟨-, h1⟩ | ⟨h0, -, h1, h2, h3⟩ | ⟨h1, h2, h3⟩
        · left
          constructor
          · ext a; rw [mem_blockV, h1]; simp
          · ext a; rw [mem_blockA, h1]; simp
        · refine .inr ⟨x, by rw [if_pos h0]; exact hx, .inl h0, by rw [h1, h3], by rw [h2, h3]⟩
        · exact .inr ⟨y, by rw [if_neg h1]; exact h3, .inr h2, rfl, rfl⟩
      refine ⟨⟨w.st, setAt (setAt w.obj j (some ⟨none, 0, 0, ⟨0, 0⟩⟩)) i (some ⟨some b, x.qv, x.qa, x.n⟩)⟩, by simp [Objects.step, hx, hb],
        ⟨?_, ?_, ?_, ?_, fun a ha => ?_, fun a ha => ?_⟩, ⟨?_, ?_, ?_, ?_, h.works.new⟩, ?_, h.mine⟩ <;> try dsimp only
      · intro k y hy a ha
        rcases hsub k y hy with ⟨h1, -⟩ | ⟨z, h1, -, h2, -⟩
        · rw [h1] at ha; exact ha.elim
        · rw [h2] at ha; exact h.regs.regV _ z h1 a ha
      · intro k y hy a ha
        rcases hsub k y hy with ⟨-, h1⟩ | ⟨z, h1, -, -, h2⟩
        · rw [h1] at ha; exact ha.elim
        · rw [h2] at ha; exact h.regs.regA _ z h1 a ha
      · intro k l y z hkl hy hz
        rcases hsub k y hy with ⟨h1, -⟩ | ⟨y', h1, h1', h2, -⟩
        · rw [h1]; exact Set.empty_disjoint _
        · rcases hsub l z hz with ⟨h3, -⟩ | ⟨z', h3, h3', h4, -⟩
          · rw [h3]; exact Set.disjoint_empty _
          · rw [h2, h4]
            refine h.regs.disjV _ _ y' z' ?_ h1 h3
            split <;> split <;> rename_i g1 g2
            · exact fun _ => hkl (g1.trans g2.symm)
            · exact fun hh => (h3'.resolve_left g2) hh.symm
            · exact h1'.resolve_left g1
            · exact hkl
      · intro k l y z hkl hy hz
        rcases hsub k y hy with ⟨-, h1⟩ | ⟨y', h1, h1', -, h2⟩
        · rw [h1]; exact Set.empty_disjoint _
        · rcases hsub l z hz with ⟨-, h3⟩ | ⟨z', h3, h3', -, h4⟩
          · rw [h3]; exact Set.disjoint_empty _
          · rw [h2, h4]
            refine h.regs.disjA _ _ y' z' ?_ h1 h3
            split <;> split <;> rename_i g1 g2
            · exact fun _ => hkl (g1.trans g2.symm)
            · exact fun hh => (h3'.resolve_left g2) hh.symm
            · exact h1'.resolve_left g1
            · exact hkl
      · refine (h.regs.onlyV a ha).imp_right fun ⟨k, y, hk, hm⟩ => ?_
        by_cases hkj : k = j
        · subst hkj
          obtain rfl := Option.some.inj (hx.symm.trans hk)
          exact ⟨i, _, setAt_same _ _ _, hm⟩
        · have hki : k ≠ i := by rintro rfl; rw [h.works.dom k hi] at hk; cases hk
          exact ⟨k, y, by rw [setAt_ne _ hki, setAt_ne _ hkj]; exact hk, hm⟩
      · refine (h.regs.onlyA a ha).imp_right fun ⟨k, y, hk, hm⟩ => ?_
        by_cases hkj : k = j
        · subst hkj
          obtain rfl := Option.some.inj (hx.symm.trans hk)
          exact ⟨i, _, setAt_same _ _ _, hm⟩
        · have hki : k ≠ i := by rintro rfl; rw [h.works.dom k hi] at hk; cases hk
          exact ⟨k, y, by rw [setAt_ne _ hki, setAt_ne _ hkj]; exact hk, hm⟩
      · intro k hk
        by_cases hki : k = i
        · subst hki; simp at hk
        · simp only [Function.update_of_ne hki] at hk
          by_cases hkj : k = j
          · subst hkj; simp at hk
          · simp only [Function.update_of_ne hkj] at hk
            rw [setAt_ne _ hki, setAt_ne _ hkj]; exact h.works.dom k hk
      · intro k hk
        by_cases hki : k = i
        · subst hki; simp at hk
        · simp only [Function.update_of_ne hki] at hk
          rw [setAt_ne _ hki]
          by_cases hkj : k = j
          · subst hkj; exact ⟨_, setAt_same _ _ _⟩
          · simp only [Function.update_of_ne hkj] at hk
            rw [setAt_ne _ hkj]; exact h.works.movd k hk
      · intro k d o' hk
        by_cases hki : k = i
        · subst hki
          simp only [Function.update_self, Option.some.injEq, Shared.on.injEq] at hk
          refine ⟨hk.1 ▸ hcn, ?_⟩
          rw [setAt_same]
          exact ⟨_, _, rfl, rfl⟩
        · simp only [Function.update_of_ne hki] at hk
          by_cases hkj : k = j
          · subst hkj; simp at hk
          · simp only [Function.update_of_ne hkj] at hk
            rw [setAt_ne _ hki, setAt_ne _ hkj]
            exact h.works.on k d o' hk
      · have key2 : ∀ k d o' y, Function.update (Function.update u.objs j (some .moved)) i (some (Shared.on c o)) k = some (.on d o') →
            setAt (setAt w.obj j (some ⟨none, 0, 0, ⟨0, 0⟩⟩)) i (some ⟨some b, x.qv, x.qa, x.n⟩) k = some y →
            ∃ k' o'' y', u.objs k' = some (.on d o'') ∧ w.obj k' = some y' ∧ y'.expr = y.expr := by
          intro k d o' y hk hy
          rcases key k y hy with ⟨h1, -⟩ | ⟨h0, h1, -⟩ | ⟨h1, h2, h3⟩
          · subst h1
            rw [Function.update_of_ne hij.symm, Function.update_self] at hk
            cases hk
          · subst h0
            rw [Function.update_self] at hk
            cases hk
            exact ⟨j, o, x, hj, hx, h1.symm⟩
          · rw [Function.update_of_ne h1, Function.update_of_ne h2] at hk
            exact ⟨k, o', y, hk, h3, rfl⟩
        intro k l d o' o'' y z hk hl hy hz
        obtain ⟨k', q1, y', a1, a2, a3⟩ := key2 k d o' y hk hy
        obtain ⟨l', q2, z', b1, b2, b3⟩ := key2 l d o'' z hl hz
        rw [← a3, ← b3]
        exact h.works.same k' l' d q1 q2 y' z' a1 b1 a2 b2
      · intro d p hp
        obtain ⟨k, hk⟩ := h.owner d p hp
        refine ⟨if k = j then i else k, hk.keep (fun y h1 h2 => ?_) h.mine.vok h.mine.aok
          (fun x hx a ha => ⟨(h.regs.regV k x hx a ha).1, rfl⟩) (fun x hx a ha => (h.regs.regA k x hx a ha).1)⟩
        by_cases hkj : k = j
        · subst hkj
          rw [if_pos rfl, Function.update_self, setAt_same]
          rw [hj] at h1
          rw [hx] at h2
          cases h1
          cases h2
          exact ⟨rfl, _, rfl, hb.symm, rfl, rfl, rfl⟩
        · have hki : k ≠ i := by rintro rfl; rw [hi] at h1; cases h1
          rw [if_neg hkj, Function.update_of_ne hki, Function.update_of_ne hkj, setAt_ne _ hki, setAt_ne _ hkj]
          exact ⟨h1, y, h2, rfl, rfl, rfl, rfl⟩
    · cases hu
  | destroy i =>
    have hex : ∃ x cache', w.obj i = some x ∧ u' = { u with cache := cache', objs := Function.update u.objs i none } ∧
        (∀ d p, cache' d = some p → u.cache d = some p ∧ u.objs i ≠ some (.on d true)) := by
      simp only [Sharing.step] at hu
      split at hu
      · rename_i c hi
        cases hu
        obtain ⟨-, x, -, hx, -⟩ := h.works.on i c true hi
        refine ⟨x, _, hx, rfl, fun d p hd => ?_⟩
        by_cases hdc : d = c
        · subst hdc; simp at hd
        · rw [Function.update_of_ne hdc] at hd
          refine ⟨hd, fun hh => hdc ?_⟩
          rw [hi] at hh; cases hh; rfl
      · rename_i s hne hi
        cases hu
        refine (?_ : ∃ x, w.obj i = some x).elim fun x hx => ⟨x, _, hx, rfl, fun d p hd => ⟨hd, fun hh => ?_⟩⟩
        · cases s with
          | moved => exact h.works.movd i hi
          | on c o => exact let ⟨_, x, _, hx, _⟩ := h.works.on i c o hi; ⟨x, hx⟩
        · rw [hi] at hh
          exact hne d (Option.some.inj hh)
      · cases hu
    obtain ⟨x, cache', hx, rfl, hcache⟩ := hex
    have hV : ∀ a, a ∉ blockV x.qv x.n → (w.st.release x.n x.qv x.qa).vok a = w.st.vok a := by
      intro a ha
      rw [mem_blockV] at ha
      show (_ && !(decide _ && decide _)) = _
      rw [← Bool.decide_and, decide_eq_false ha, Bool.not_false, Bool.and_true]
    have hA : ∀ a, a ∉ blockA x.qa x.n → (w.st.release x.n x.qv x.qa).aok a = w.st.aok a := by
      intro a ha
      rw [mem_blockA] at ha
      show (_ && !(decide _ && decide _)) = _
      rw [← Bool.decide_and, decide_eq_false ha, Bool.not_false, Bool.and_true]
    have huV : ∀ a, uv a = true → a ∉ blockV x.qv x.n := fun a ha hb => by
      have := (h.regs.regV i x hx a hb).2
      rw [ha] at this; cases this
    have huA : ∀ a, ua a = true → a ∉ blockA x.qa x.n := fun a ha hb => by
      have := (h.regs.regA i x hx a hb).2
      rw [ha] at this; cases this
    have hother : ∀ k y, setAt w.obj i none k = some y → k ≠ i ∧ w.obj k = some y := by
      intro k y hy
      by_cases hki : k = i
      · subst hki; rw [setAt_same] at hy; cases hy
      · rw [setAt_ne _ hki] at hy; exact ⟨hki, hy⟩
    have hoV : ∀ k y, k ≠ i → w.obj k = some y → ∀ a ∈ blockV y.qv y.n, a ∉ blockV x.qv x.n := fun k y hki hy a ha =>
      Set.disjoint_left.1 (h.regs.disjV k i y x hki hy hx) ha
    have hoA : ∀ k y, k ≠ i → w.obj k = some y → ∀ a ∈ blockA y.qa y.n, a ∉ blockA x.qa x.n := fun k y hki hy a ha =>
      Set.disjoint_left.1 (h.regs.disjA k i y x hki hy hx) ha
    have huo : ∀ k (t : Shared), Function.update u.objs i none k = some t → k ≠ i ∧ u.objs k = some t := by
      intro k t hk
      by_cases hki : k = i
      · subst hki; rw [Function.update_self] at hk; cases hk
      · rw [Function.update_of_ne hki] at hk; exact ⟨hki, hk⟩
    have hfree : w.st.free x.n x.qv x.qa = some (w.st.release x.n x.qv x.qa) :=
      if_pos ⟨fun k hk => (h.regs.regV i x hx _ (mem_blockV.2 ⟨by omega, by omega⟩)).1, fun k hk => (h.regs.regA i x hx _ (mem_blockA.2 ⟨by omega, by omega⟩)).1⟩
    have hrV : ∀ a, (w.st.release x.n x.qv x.qa).vok a = true → w.st.vok a = true ∧ a ∉ blockV x.qv x.n := by
      intro a ha
      simp only [St.release, Bool.and_eq_true, Bool.not_eq_true', Bool.and_eq_false_iff, decide_eq_false_iff_not] at ha
      exact ⟨ha.1, fun hb => by have := mem_blockV.1 hb; omega⟩
    have hrA : ∀ a, (w.st.release x.n x.qv x.qa).aok a = true → w.st.aok a = true ∧ a ∉ blockA x.qa x.n := by
      intro a ha
      simp only [St.release, Bool.and_eq_true, Bool.not_eq_true', Bool.and_eq_false_iff, decide_eq_false_iff_not] at ha
      exact ⟨ha.1, fun hb => by have := mem_blockA.1 hb; omega⟩
    refine ⟨⟨w.st.release x.n x.qv x.qa, setAt w.obj i none⟩, by simp [Objects.step, hx, hfree], ⟨?_, ?_, ?_, ?_, fun a ha => ?_, fun a ha => ?_⟩, ⟨?_, ?_, ?_, ?_, ?_⟩, ?_, ⟨?_, ?_, h.mine.val, h.mine.adj⟩⟩ <;> try dsimp only
    · intro k y hy a ha
      obtain ⟨hki, hy⟩ := hother k y hy
      have := h.regs.regV k y hy a ha
      exact ⟨(hV a (hoV k y hki hy a ha)).trans this.1, this.2⟩
    · intro k y hy a ha
      obtain ⟨hki, hy⟩ := hother k y hy
      have := h.regs.regA k y hy a ha
      exact ⟨(hA a (hoA k y hki hy a ha)).trans this.1, this.2⟩
    · intro k l y z hkl hy hz
      exact h.regs.disjV k l y z hkl (hother k y hy).2 (hother l z hz).2
    · intro k l y z hkl hy hz
      exact h.regs.disjA k l y z hkl (hother k y hy).2 (hother l z hz).2
    · refine (h.regs.onlyV a (hrV a ha).1).imp_right fun ⟨k, y, hk, hm⟩ => ?_
      by_cases hki : k = i
      · subst hki
        obtain rfl := Option.some.inj (hx.symm.trans hk)
        exact ((hrV a ha).2 hm).elim
      · exact ⟨k, y, by rw [setAt_ne _ hki]; exact hk, hm⟩
    · refine (h.regs.onlyA a (hrA a ha).1).imp_right fun ⟨k, y, hk, hm⟩ => ?_
      by_cases hki : k = i
      · subst hki
        obtain rfl := Option.some.inj (hx.symm.trans hk)
        exact ((hrA a ha).2 hm).elim
      · exact ⟨k, y, by rw [setAt_ne _ hki]; exact hk, hm⟩
    · intro k hk
      by_cases hki : k = i
      · subst hki; exact setAt_same _ _ _
      · simp only [Function.update_of_ne hki] at hk
        rw [setAt_ne _ hki]; exact h.works.dom k hk
    · intro k hk
      obtain ⟨hki, hk⟩ := huo k _ hk
      rw [setAt_ne _ hki]; exact h.works.movd k hk
    · intro k c o hk
      obtain ⟨hki, hk⟩ := huo k _ hk
      rw [setAt_ne _ hki]; exact h.works.on k c o hk
    · intro k l c o o' y z hk hl hy hz
      exact h.works.same k l c o o' y z (huo k _ hk).2 (huo l _ hl).2 (hother k y hy).2 (hother l z hz).2
    · intro c hc
      rcases hcc : cache' c with _ | p
      · rfl
      · have := (hcache c p hcc).1
        rw [h.works.new c hc] at this; cases this
    · intro d p hp
      obtain ⟨hd, hne⟩ := hcache d p hp
      obtain ⟨k, hk⟩ := h.owner d p hd
      have hki : k ≠ i := by
        rintro rfl
        obtain ⟨y, b, h1, -⟩ := hk
        exact hne h1
      refine ⟨k, hk.keep (k := k) (fun y h1 h2 => ?_) (fun a ha => (hV a (huV a ha)).trans (h.mine.vok a ha))
        (fun a ha => (hA a (huA a ha)).trans (h.mine.aok a ha)) (fun y hy a ha => ⟨?_, rfl⟩) (fun y hy a ha => ?_)⟩
      · rw [Function.update_of_ne hki, setAt_ne _ hki]
        exact ⟨h1, y, h2, rfl, rfl, rfl, rfl⟩
      · exact (hV a (hoV k y hki hy a ha)).trans (h.regs.regV k y hy a ha).1
      · exact (hA a (hoA k y hki hy a ha)).trans (h.regs.regA k y hy a ha).1
    · exact fun a ha => (hV a (huV a ha)).trans (h.mine.vok a ha)
    · exact fun a ha => (hA a (huA a ha)).trans (h.mine.aok a ha)
  | evaluate i =>
    simp only [Sharing.step, Option.map_eq_some_iff] at hu
    obtain ⟨p, hp, rfl⟩ := hu
    obtain ⟨c, o, k, x, y, b, h1, h2, h3, h4, h5, h6, h7, h8, hmin, ho⟩ := h.use hp
    obtain ⟨s', r, he⟩ := ho.bnd.evaluate (m := u.vals) fun a ha => h.mine.val a (reads_alive ho.alive a ha)
    refine ⟨{ w with st := s' }, by simp [Objects.step, h3, h4, he.run], ?_⟩
    have := h.evaluated h1 h2 h5 h6 h7 h8 hmin ho he.vok he.aok (fun a ha => he.frame a (by rw [h8] at ha; exact ha)) he.cached u.log
      (fun a ha => by rw [he.adj]; exact h.mine.adj a ha)
    have hlog : { u.evaluated i p.1 with log := u.log } = u.evaluated i p.1 := by
      unfold Sharing.evaluated; rw [h1]
    rw [← hlog]
    exact this
  | autodiff i seed =>
    simp only [Sharing.step, Option.map_eq_some_iff] at hu
    obtain ⟨p, hp, rfl⟩ := hu
    obtain ⟨c, o, k, x, y, b, h1, h2, h3, h4, h5, h6, h7, h8, hmin, ho⟩ := h.use hp
    obtain ⟨s1, r, he⟩ := ho.bnd.evaluate (m := u.vals) fun a ha => h.mine.val a (reads_alive ho.alive a ha)
    obtain ⟨s', hd⟩ := (show Bnd _ _ _ _ s1.vok s1.aok by rw [he.vok, he.aok]; exact ho.bnd).evaluateAdj he.cached seed
    refine ⟨{ w with st := s' }, ?_, ?_⟩
    · have e1 := he.run
      have e2 := hd.run
      simp only at e1 e2
      simp [Objects.step, h3, h4, FastAD.autodiff, e1, e2]
    · refine h.evaluated h1 h2 h5 h6 h7 h8 hmin ho (hd.vok.trans he.vok) (hd.aok.trans he.aok)
        (fun a ha => by rw [hd.val]; exact he.frame a (by rw [h8] at ha; exact ha)) (by rw [hd.val]; exact he.cached) _ fun a ha => ?_
      have hna : a ∉ blockA y.qa p.1.bindSize := fun hb => by
        have := (ho.ba a hb).2
        rw [ha] at this; cases this
      rw [hd.adj a hna, he.adj, h.mine.adj a ha, replayAdj_append]
      rfl
  | evaluateAdj i seed =>
    simp only [Sharing.step] at hu
    split at hu
    · rename_i e m hp
      cases hu
      obtain ⟨c, o, k, x, y, b, h1, h2, h3, h4, h5, h6, h7, h8, hmin, ho⟩ := h.use hp
      obtain ⟨g, hg, hg1, hg2⟩ := ho.cached m rfl
      have hm : ∀ c ∈ e.valCells ∪ e.constCells, u.vals c = m c := hc e m hp
      have hcach : b.Cached m w.st.val := by
        refine Expr.Cached.congr _ hg fun a ha => ?_
        rcases ha with ha | ha
        · exact hg1 a (ho.bnd.ownV ha)
        · rw [Expr.reads_of_strip ho.bnd.strip] at ha
          rw [h.mine.val a (reads_alive ho.alive a ha), hg2 a ha, hm a (reads_leaves ha)]
      obtain ⟨s', hd⟩ := ho.bnd.evaluateAdj hcach seed
      refine ⟨{ w with st := s' }, ?_, h.regs.congr hd.vok hd.aok, h.works, fun d p hp => ?_, ?_⟩
      · have e2 := hd.run
        simp only at e2
        simp [Objects.step, h3, h4, e2]
      · obtain ⟨k, x, b, q1, q2, q3, q4, q5, q6⟩ := h.owner d p hp
        exact ⟨k, x, b, q1, q2, q3, q4, q5, q6.congr hd.vok hd.aok fun a _ => by rw [hd.val]⟩
      · refine ⟨fun a ha => ?_, fun a ha => ?_, fun a ha => ?_, fun a ha => ?_⟩
        · show s'.vok a = true
          rw [hd.vok]; exact h.mine.vok a ha
        · show s'.aok a = true
          rw [hd.aok]; exact h.mine.aok a ha
        · show s'.val a = _
          rw [hd.val]; exact h.mine.val a ha
        · have hna : a ∉ blockA y.qa e.bindSize := fun hb => by
            have := (ho.ba a hb).2
            rw [ha] at this; cases this
          show s'.adj a = _
          rw [hd.adj a hna, h.mine.adj a ha, replayAdj_append]
          rfl
    · cases hu
  | setVal a x =>
    cases hu
    have ha : uv a = true := hc
    have hacc : accessible w.st.vok (some a) 1 := by
      intro k hk
      obtain rfl : k = 0 := by omega
      exact h.mine.vok a ha
    have hfill : ∀ b, fillRange w.st.val a 1 (fun _ => x) b = Function.update w.st.val a x b := by
      intro b
      simp only [fillRange, Function.update_apply]
      by_cases hb : b = a
      · subst hb; simp
      · rw [if_neg (by omega), if_neg hb]
    refine ⟨⟨{ w.st with val := fillRange w.st.val a 1 fun _ => x }, w.obj⟩, ?_, h.regs.congr rfl rfl, h.works, fun d p hp => ?_,
      ⟨h.mine.vok, h.mine.aok, fun b hb => ?_, h.mine.adj⟩⟩
    · simp only [Objects.step, writeV_eq hacc]
      rfl
    · obtain ⟨k, y, b, q1, q2, q3, q4, q5, q6⟩ := h.owner d p hp
      refine ⟨k, y, b, q1, q2, q3, q4, q5, q6.congr rfl rfl fun b hb => ?_⟩
      have : b ≠ a := by
        rintro rfl
        have := (q6.bv b hb).2
        rw [ha] at this; cases this
      exact (hfill b).trans (by simp [this])
    · refine (hfill b).trans ?_
      by_cases hba : b = a
      · subst hba; simp
      · simp [hba, h.mine.val b hb]
  | setAdj a x =>
    cases hu
    have ha : ua a = true := hc
    have hacc : accessible w.st.aok (some a) 1 := by
      intro k hk
      obtain rfl : k = 0 := by omega
      exact h.mine.aok a ha
    refine ⟨⟨{ w.st with adj := fillRange w.st.adj a 1 fun _ => x }, w.obj⟩, ?_, h.regs.congr rfl rfl, h.works, fun d p hp => ?_,
      ⟨h.mine.vok, h.mine.aok, h.mine.val, fun b hb => ?_⟩⟩
    · simp only [Objects.step, writeA_eq hacc]
      rfl
    · obtain ⟨k, y, b, q1, q2, q3, q4, q5, q6⟩ := h.owner d p hp
      exact ⟨k, y, b, q1, q2, q3, q4, q5, q6.congr rfl rfl fun b _ => rfl⟩
    · simp only [replayAdj_append, replayAdj, fillRange]
      rw [← h.mine.adj b hb]
      by_cases hba : b = a
      · subst hba; simp
      · rw [if_neg (by omega), if_neg hba]

/-- every legal sequence of steps is defined and preserves the invariant -/
theorem OInv.run {uv ua : ℕ → Bool} {adj0 : ℕ → ℝ} (cs : List (ObjCall ℝ)) : ∀ {u : Sharing ℝ} {w : Objects ℝ}, OInv uv ua adj0 u w →
    u.Legal uv ua w cs → ∃ w' u', w.run cs = some w' ∧ u.run cs = some u' ∧ OInv uv ua adj0 u' w' := by
  induction cs with
  | nil => intro u w h _; exact ⟨w, u, rfl, rfl, h⟩
  | cons c cs ih =>
    intro u w h hl
    obtain ⟨hm, u1, hu1, hl⟩ := hl
    obtain ⟨w1, hw1, h1⟩ := h.step c hm hu1
    obtain ⟨w2, u2, hw2, hu2, h2⟩ := ih h1 (hl w1 hw1)
    exact ⟨w2, u2, by simp [Objects.run, hw1, hw2], by simp [Sharing.run, hu1, hu2], h2⟩

/-- without copies every object has its own cache -/
structure OwnRel (u : Owners ℝ) (v : Sharing ℝ) : Prop where
  vals : v.vals = u.vals
  log : v.log = u.log
  gone : ∀ i, u.objs i = none → v.objs i = none
  moved : ∀ i, u.objs i = some .moved → v.objs i = some .moved
  live : ∀ i e m, u.objs i = some (.live e m) → ∃ c, v.objs i = some (.on c true) ∧ v.cache c = some (e, m) ∧ c < v.next
  inj : ∀ i j c e m e' m', u.objs i = some (.live e m) → u.objs j = some (.live e' m') → v.objs i = some (.on c true) → v.objs j = some (.on c true) → i = j

theorem OwnRel.view {u : Owners ℝ} {v : Sharing ℝ} (h : OwnRel u v) : v.view = u.view := by
  funext i
  unfold Sharing.view Owners.view
  rcases hi : u.objs i with _ | (_ | ⟨e, m⟩)
  · rw [h.gone i hi]
  · rw [h.moved i hi]
  · obtain ⟨c, h1, h2, -⟩ := h.live i e m hi
    rw [h1]; exact h2

theorem OwnRel.init (vals : ℕ → ℝ) : OwnRel (Owners.init vals) (Sharing.init vals) :=
  ⟨rfl, rfl, fun _ _ => rfl, fun _ h => (by cases h), fun _ _ _ h => (by cases h), fun _ _ _ _ _ _ _ h => (by cases h)⟩

theorem OwnRel.step {u u' : Owners ℝ} {v : Sharing ℝ} (h : OwnRel u v) (c : ObjCall ℝ) (hc : c.isCopy = false) (hu : u.step c = some u') :
    ∃ v', v.step c = some v' ∧ OwnRel u' v' := by
  -- an evaluation of object `i`
  have heval : ∀ i e m log, u.objs i = some (.live e m) → ∃ c, v.objs i = some (.on c true) ∧ v.view i = some (e, m) ∧
      OwnRel ⟨u.vals, Function.update u.objs i (some (.live e (some u.vals))), log⟩ { v.evaluated i e with log := log } := by
    intro i e m log hi
    obtain ⟨c, h1, h2, hlt⟩ := h.live i e m hi
    refine ⟨c, h1, by unfold Sharing.view; rw [h1]; exact h2, ?_⟩
    have hev : v.evaluated i e = { v with cache := Function.update v.cache c (some (e, some v.vals)) } := by
      unfold Sharing.evaluated; rw [h1]
    rw [hev]
    refine ⟨h.vals, rfl, ?_, ?_, ?_, ?_⟩
    · intro j hj
      by_cases hji : j = i
      · subst hji; simp at hj
      · simp only [Function.update_of_ne hji] at hj; exact h.gone j hj
    · intro j hj
      by_cases hji : j = i
      · subst hji; simp at hj
      · simp only [Function.update_of_ne hji] at hj; exact h.moved j hj
    · intro j e' m' hj
      by_cases hji : j = i
      · subst hji
        simp only [Function.update_self, Option.some.injEq, Owned.live.injEq] at hj
        refine ⟨c, h1, ?_, hlt⟩
        simp only [Function.update_self]
        rw [← hj.1, ← hj.2, h.vals]
      · simp only [Function.update_of_ne hji] at hj
        obtain ⟨d, g1, g2, g3⟩ := h.live j e' m' hj
        refine ⟨d, g1, ?_, g3⟩
        have : d ≠ c := by
          rintro rfl
          exact hji (h.inj j i d e' m' e m hj hi g1 h1)
        simp only [Function.update_of_ne this]
        exact g2
    · intro j k d e1 m1 e2 m2 hj hk g1 g2
      have key : ∀ j e1 m1, Function.update u.objs i (some (Owned.live e (some u.vals))) j = some (.live e1 m1) →
          ∃ e' m', u.objs j = some (.live e' m') := by
        intro j e1 m1 hj
        by_cases hji : j = i
        · subst hji; exact ⟨e, m, hi⟩
        · rw [Function.update_of_ne hji] at hj; exact ⟨e1, m1, hj⟩
      obtain ⟨e1', m1', hj'⟩ := key j e1 m1 hj
      obtain ⟨e2', m2', hk'⟩ := key k e2 m2 hk
      exact h.inj j k d e1' m1' e2' m2' hj' hk' g1 g2
  cases c with
  | copy i j qv qa => cases hc
  | bind i e qv qa jv ja =>
    simp only [Owners.step] at hu
    split at hu
    · rename_i hi
      cases hu
      have hs : v.step (.bind i e qv qa jv ja) = some { v with
          next := v.next + 1, cache := Function.update v.cache v.next (some (e, none))
          objs := Function.update v.objs i (some (.on v.next true)) } := by simp only [Sharing.step, h.gone i hi]
      refine ⟨_, hs, h.vals, h.log, ?_, ?_, ?_, ?_⟩
      · intro j hj
        by_cases hji : j = i
        · subst hji; simp at hj
        · simp only [Function.update_of_ne hji] at hj ⊢; exact h.gone j hj
      · intro j hj
        by_cases hji : j = i
        · subst hji; simp at hj
        · simp only [Function.update_of_ne hji] at hj ⊢; exact h.moved j hj
      · intro j e' m' hj
        by_cases hji : j = i
        · subst hji
          simp only [Function.update_self, Option.some.injEq, Owned.live.injEq] at hj
          refine ⟨v.next, Function.update_self .., ?_, Nat.lt_succ_self _⟩
          simp only [Function.update_self]
          rw [← hj.1, ← hj.2]
        · simp only [Function.update_of_ne hji] at hj ⊢
          obtain ⟨d, g1, g2, g3⟩ := h.live j e' m' hj
          refine ⟨d, g1, ?_, Nat.lt_succ_of_lt g3⟩
          rw [Function.update_of_ne (by omega)]
          exact g2
      · intro j k d e1 m1 e2 m2 hj hk g1 g2
        by_cases hji : j = i
        · by_cases hki : k = i
          · exact hji.trans hki.symm
          · subst hji
            simp only [Function.update_of_ne hki, Function.update_self, Option.some.injEq, Shared.on.injEq] at hk g1 g2
            obtain ⟨d', q1, -, q3⟩ := h.live k e2 m2 hk
            rw [q1] at g2
            cases g2
            omega
        · simp only [Function.update_of_ne hji] at hj g1
          by_cases hki : k = i
          · subst hki
            simp only [Function.update_self, Option.some.injEq, Shared.on.injEq] at g2
            obtain ⟨d', q1, -, q3⟩ := h.live j e1 m1 hj
            rw [q1] at g1
            cases g1
            omega
          · simp only [Function.update_of_ne hki] at hk g2
            exact h.inj j k d e1 m1 e2 m2 hj hk g1 g2
    · cases hu
  | move i j =>
    simp only [Owners.step] at hu
    split at hu
    · rename_i e m hi hj
      cases hu
      obtain ⟨c, h1, h2, hlt⟩ := h.live j e m hj
      have hij : i ≠ j := by rintro rfl; rw [hi] at hj; cases hj
      -- where the live objects come from
      have key : ∀ k e' m', Function.update (Function.update u.objs j (some Owned.moved)) i (some (.live e m)) k = some (.live e' m') →
          (k = i ∧ e' = e ∧ m' = m) ∨ (k ≠ i ∧ k ≠ j ∧ u.objs k = some (.live e' m')) := by
        intro k e' m' hk
        by_cases hki : k = i
        · subst hki
          rw [Function.update_self] at hk
          cases hk
          exact .inl ⟨rfl, rfl, rfl⟩
        · rw [Function.update_of_ne hki] at hk
          by_cases hkj : k = j
          · subst hkj; rw [Function.update_self] at hk; cases hk
          · rw [Function.update_of_ne hkj] at hk
            exact .inr ⟨hki, hkj, hk⟩
      have hs : v.step (.move i j) = some { v with
          objs := Function.update (Function.update v.objs j (some .moved)) i (some (.on c true)) } := by
        simp only [Sharing.step, h.gone i hi, h1]
      refine ⟨_, hs, h.vals, h.log, ?_, ?_, ?_, ?_⟩
      · intro k hk
        by_cases hki : k = i
        · subst hki; simp at hk
        · by_cases hkj : k = j
          · subst hkj; simp [Function.update_of_ne hki] at hk
          · simp only [Function.update_of_ne hki, Function.update_of_ne hkj] at hk ⊢; exact h.gone k hk
      · intro k hk
        by_cases hki : k = i
        · subst hki; simp at hk
        · by_cases hkj : k = j
          · subst hkj; simp [Function.update_of_ne hki]
          · simp only [Function.update_of_ne hki, Function.update_of_ne hkj] at hk ⊢; exact h.moved k hk
      · intro k e' m' hk
        rcases key k e' m' hk with ⟨rfl, rfl, rfl⟩ | ⟨hki, hkj, hk⟩
        · exact ⟨c, Function.update_self .., h2, hlt⟩
        · simp only [Function.update_of_ne hki, Function.update_of_ne hkj]
          exact h.live k e' m' hk
      · intro k l d e1 m1 e2 m2 hk hl g1 g2
        rcases key k e1 m1 hk with ⟨rfl, rfl, rfl⟩ | ⟨hki, hkj, hk'⟩
        · rcases key l e2 m2 hl with ⟨rfl, rfl, rfl⟩ | ⟨hli, hlj, hl⟩
          · rfl
          · simp only [Function.update_self, Option.some.injEq, Shared.on.injEq, and_true, Function.update_of_ne hli, Function.update_of_ne hlj] at g1 g2
            subst g1
            exact (hlj (h.inj l j c e2 m2 e1 m1 hl hj g2 h1)).elim
        · simp only [Function.update_of_ne hki, Function.update_of_ne hkj] at g1
          rcases key l e2 m2 hl with ⟨rfl, rfl, rfl⟩ | ⟨hli, hlj, hl⟩
          · simp only [Function.update_self, Option.some.injEq, Shared.on.injEq, and_true] at g2
            subst g2
            exact (hkj (h.inj k j c e1 m1 e2 m2 hk' hj g1 h1)).elim
          · simp only [Function.update_of_ne hli, Function.update_of_ne hlj] at g2
            exact h.inj k l d e1 m1 e2 m2 hk' hl g1 g2
    · cases hu
  | destroy i =>
    simp only [Owners.step] at hu
    split at hu
    · rename_i o hi
      cases hu
      have huo : ∀ k (t : Owned ℝ), Function.update u.objs i none k = some t → k ≠ i ∧ u.objs k = some t := by
        intro k t hk
        by_cases hki : k = i
        · subst hki; rw [Function.update_self] at hk; cases hk
        · rw [Function.update_of_ne hki] at hk; exact ⟨hki, hk⟩
      have main : ∀ cache', (∀ k e m c, k ≠ i → u.objs k = some (.live e m) → v.objs k = some (.on c true) → v.cache c = some (e, m) → cache' c = some (e, m)) →
          OwnRel { u with objs := Function.update u.objs i none } { v with cache := cache', objs := Function.update v.objs i none } := by
        intro cache' hcache
        refine ⟨h.vals, h.log, fun k hk => ?_, fun k hk => ?_, fun k e m hk => ?_, fun k l d e1 m1 e2 m2 hk hl g1 g2 => ?_⟩
        · by_cases hki : k = i
          · subst hki; exact Function.update_self ..
          · simp only [Function.update_of_ne hki] at hk ⊢; exact h.gone k hk
        · obtain ⟨hki, hk⟩ := huo k _ hk
          simp only [Function.update_of_ne hki]; exact h.moved k hk
        · obtain ⟨hki, hk⟩ := huo k _ hk
          simp only [Function.update_of_ne hki]
          obtain ⟨c, q1, q2, q3⟩ := h.live k e m hk
          exact ⟨c, q1, hcache k e m c hki hk q1 q2, q3⟩
        · obtain ⟨hki, hk⟩ := huo k _ hk
          obtain ⟨hli, hl⟩ := huo l _ hl
          simp only [Function.update_of_ne hki, Function.update_of_ne hli] at g1 g2
          exact h.inj k l d e1 m1 e2 m2 hk hl g1 g2
      cases o with
      | moved =>
        have hs : v.step (.destroy i) = some { v with objs := Function.update v.objs i none } := by
          simp only [Sharing.step, h.moved i hi]
        exact ⟨_, hs, main v.cache fun _ _ _ _ _ _ _ h => h⟩
      | live e m =>
        obtain ⟨c, h1, h2, hlt⟩ := h.live i e m hi
        have hs : v.step (.destroy i) = some { v with
            cache := Function.update v.cache c none, objs := Function.update v.objs i none } := by
          simp only [Sharing.step, h1]
        refine ⟨_, hs, main _ fun k e' m' d hki hk q1 q2 => ?_⟩
        have : d ≠ c := by
          rintro rfl
          exact hki (h.inj k i d e' m' e m hk hi q1 h1)
        rw [Function.update_of_ne this]
        exact q2
    · cases hu
  | evaluate i =>
    simp only [Owners.step] at hu
    split at hu
    · rename_i e m hi
      cases hu
      obtain ⟨c, h1, h2, h3⟩ := heval i e m u.log hi
      refine ⟨v.evaluated i e, by simp only [Sharing.step, h2, Option.map_some], ?_⟩
      have hlog : { v.evaluated i e with log := u.log } = v.evaluated i e := by
        unfold Sharing.evaluated; rw [h1, ← h.log]
      rw [hlog] at h3
      exact h3
    · cases hu
  | autodiff i seed =>
    simp only [Owners.step] at hu
    split at hu
    · rename_i e m hi
      cases hu
      obtain ⟨c, h1, h2, h3⟩ := heval i e m (u.log ++ [.pass e u.vals seed]) hi
      refine ⟨{ v.evaluated i e with log := v.log ++ [.pass e v.vals seed] }, by simp only [Sharing.step, h2, Option.map_some], ?_⟩
      rw [h.log, h.vals]
      exact h3
    · cases hu
  | evaluateAdj i seed =>
    simp only [Owners.step] at hu
    split at hu
    · rename_i e m hi
      cases hu
      obtain ⟨c, h1, h2, -⟩ := heval i e (some m) u.log hi
      refine ⟨{ v with log := v.log ++ [.pass e m seed] }, by simp only [Sharing.step, h2], h.vals, ?_, h.gone, h.moved, h.live, h.inj⟩
      show v.log ++ _ = _
      rw [h.log]
    · cases hu
  | setVal a x =>
    cases hu
    refine ⟨_, rfl, ?_, h.log, h.gone, h.moved, h.live, h.inj⟩
    show Function.update v.vals a x = _
    rw [h.vals]
  | setAdj a x =>
    cases hu
    refine ⟨_, rfl, h.vals, ?_, h.gone, h.moved, h.live, h.inj⟩
    show v.log ++ _ = _
    rw [h.log]

/-- without copies every sequence that is legal in the ideal is defined and behaves like the ideal -/
theorem OwnRel.run {uv ua : ℕ → Bool} {adj0 : ℕ → ℝ} (cs : List (ObjCall ℝ)) (hcs : ∀ c ∈ cs, c.isCopy = false) :
    ∀ {u : Owners ℝ} {v : Sharing ℝ} {w : Objects ℝ}, OwnRel u v → OInv uv ua adj0 v w → u.Legal uv ua w cs →
      ∃ w' u' v', w.run cs = some w' ∧ u.run cs = some u' ∧ OwnRel u' v' ∧ OInv uv ua adj0 v' w' := by
  induction cs with
  | nil =>
    intro u v w h hi _
    exact ⟨w, u, v, rfl, rfl, h, hi⟩
  | cons c cs ih =>
    rintro u v w h hi ⟨hm, u1, hu1, hl⟩
    obtain ⟨v1, hv1, h1⟩ := h.step c (hcs c (List.mem_cons_self ..)) hu1
    obtain ⟨w1, hw1, hi1⟩ := hi.step c (by rw [h.view, h.vals]; exact hm) hv1
    obtain ⟨w2, u2, v2, hw2, hu2, h2, hi2⟩ := ih (fun d hd => hcs d (List.mem_cons_of_mem _ hd)) h1 hi1 (hl w1 hw1)
    exact ⟨w2, u2, v2, by simp [Objects.run, hw1, hw2], by simp [Owners.run, hu1, hu2], h2, hi2⟩

end FastAD
