import Verif.Spec.Stat

/-!
# The history of a log-density node

Data members are computed at construction (for constant operands) or recomputed by every evaluation, so that what happened before does not matter.
-/

set_option linter.unusedSectionVars false

namespace FastAD

variable {α : Type} [Zero α] [One α] [Add α] [Sub α] [Neg α] [Mul α] [Div α] [NatCast α]
variable [Fn α] [HasInf α] [LinAlg α]

/-- two results of an evaluation at `v` that cannot be told apart -/
def Alike (N : StatNode α) (I : Args α → N.Cache → Prop) (v : Args α) (p q : Option (N.Cache × α)) : Prop :=
  ∃ c d f, p = some (c, f) ∧ q = some (d, f) ∧ I v c ∧ ∀ seed, N.beval c v seed = N.beval d v seed

theorem alike_ret {N : StatNode α} {I : Args α → N.Cache → Prop} {v : Args α} {c d : N.Cache} {f g : α} (h : f = g) (hI : I v c)
    (hb : ∀ seed, N.beval c v seed = N.beval d v seed) : Alike N I v (ret c f) (ret d g) := ⟨c, d, f, rfl, by rw [h]; rfl, hI, hb⟩

/-- `I v c`: the data members `c` that belong to constant operands are those of the operand values `v`. -/
structure Forgets (N : StatNode α) (k : Kinds) (I : Args α → N.Cache → Prop) : Prop where
  ctor : ∀ v, ∃ c, N.ctor v = some c ∧ I v c
  congr : ∀ v w c, SameConsts k v w → I v c → I w c
  step : ∀ v c d, I v c → I v d → Alike N I v (N.feval c v) (N.feval d v)

theorem SameConsts.symm {k : Kinds} {v w : Args α} (h : SameConsts k v w) : SameConsts k w v := fun s hs => (h s hs).symm

theorem Forgets.run {N : StatNode α} {k : Kinds} {I : Args α → N.Cache → Prop} (hN : Forgets N k I) (v0 : Args α) :
    ∀ h : List (Args α), (∀ w ∈ h, SameConsts k v0 w) → ∃ c, N.run v0 h = some c ∧ I v0 c := by
  intro h
  induction h with
  | nil => intro _; exact hN.ctor v0
  | cons v h ih =>
    intro hs
    obtain ⟨c, hc, hI⟩ := ih fun w hw => hs w (List.mem_cons_of_mem _ hw)
    have hv := hs v (List.mem_cons_self ..)
    have hIv := hN.congr _ _ _ hv hI
    obtain ⟨c', d', f, h1, -, h3, -⟩ := hN.step v c c hIv hIv
    refine ⟨c', ?_, hN.congr _ _ _ hv.symm h3⟩
    simp only [StatNode.run, hc, h1, Option.bind_eq_bind, Option.bind_some]

/-- What a node with this property does is independent of its history. -/
theorem Forgets.history {N : StatNode α} {k : Kinds} {I : Args α → N.Cache → Prop} (hN : Forgets N k I) {v0 v : Args α} {h : List (Args α)}
    (hs : ∀ w ∈ v :: h, SameConsts k v0 w) :
    ∃ c c' d f, N.run v0 h = some c ∧ N.feval c v = some (c', f) ∧ N.once v = some (d, f) ∧ ∀ seed, N.beval c' v seed = N.beval d v seed := by
  obtain ⟨c, hc, hI⟩ := hN.run v0 h fun w hw => hs w (List.mem_cons_of_mem _ hw)
  obtain ⟨c0, hc0, hI0⟩ := hN.ctor v
  obtain ⟨c', d', f, h1, h2, -, h4⟩ := hN.step v c c0 (hN.congr _ _ _ (hs v (List.mem_cons_self ..)) hI) hI0
  refine ⟨c, c', d', f, hc, h1, ?_, h4⟩
  simp only [StatNode.once, hc0, Option.bind_eq_bind, Option.bind_some, h2]

theorem SameConsts.x {k : Kinds} {v w : Args α} (h : SameConsts k v w) (hk : k.x.isConst = true) : w.x = v.x :=
  h .x (by revert hk; simp only [Kinds.get]; cases k.x <;> simp [ArgKind.isConst])
theorem SameConsts.a {k : Kinds} {v w : Args α} (h : SameConsts k v w) (hk : k.a.isConst = true) : w.a = v.a :=
  h .a (by revert hk; simp only [Kinds.get]; cases k.a <;> simp [ArgKind.isConst])
theorem SameConsts.b {k : Kinds} {v w : Args α} (h : SameConsts k v w) (hk : k.b.isConst = true) : w.b = v.b :=
  h .b (by revert hk; simp only [Kinds.get]; cases k.b <;> simp [ArgKind.isConst])

theorem forgets_normalSSS (k : Kinds) : Forgets (normalSSS (α := α) k) k fun v (c : α) => k.b.isConst = true → c = Fn.log (v.b 0) where
  ctor v := ⟨_, rfl, fun h => by simp only [h, if_true]⟩
  congr v w c h hI hk := by rw [hI hk, h.b hk]
  step v := fun (c d : α) hc hd => by
    dsimp only [normalSSS]
    by_cases hs : Fn.ble (v.b 0) (0 : α) = true
    · simp only [hs, if_true]
      exact alike_ret rfl hc fun _ => rfl
    · simp only [hs, Bool.false_eq_true, if_false]
      cases hk : k.b.isConst
      · exact alike_ret rfl (fun _ => rfl) fun _ => rfl
      · obtain rfl := hc hk
        obtain rfl := hd hk
        exact alike_ret rfl (fun _ => rfl) fun _ => rfl

theorem forgets_normalVSS (k : Kinds) (n : ℕ) (hn : k.x = .const → 0 < n) : Forgets (normalVSS (α := α) k n) k fun v (c : NormalVSSCache α) =>
    (k.b.isConst = true → c.logSigma = Fn.log (v.b 0)) ∧
      (k.x.isConst = true → c.xMean = sumN n v.x / (n : α) ∧ c.xVar = sqNorm n fun i => v.x i - sumN n v.x / (n : α)) where
  ctor v := by
    dsimp only [normalVSS]
    cases hx : k.x.isConst
    · exact ⟨_, rfl, fun h => by simp only [h, if_true], fun h => by cases h⟩
    · have : n ≠ 0 := (hn (by revert hx; cases k.x <;> simp [ArgKind.isConst])).ne'
      simp only [if_true, this, if_false]
      exact ⟨_, rfl, fun h => by simp only [h, if_true], fun _ => ⟨rfl, rfl⟩⟩
  congr v w c h hI := ⟨fun hk => by rw [hI.1 hk, h.b hk], fun hk => by rw [h.x hk]; exact hI.2 hk⟩
  step v := fun (c d : NormalVSSCache α) hc hd => by
    dsimp only [normalVSS]
    by_cases hs : Fn.ble (v.b 0) (0 : α) = true
    · simp only [hs, if_true]
      exact alike_ret rfl hc fun _ => by simp only [normalVSS, hs, Bool.or_true, if_true]
    · simp only [hs, Bool.false_eq_true, if_false]
      obtain ⟨c1, c2, c3, c4⟩ := c
      obtain ⟨d1, d2, d3, d4⟩ := d
      obtain ⟨hc1, hc2⟩ := hc
      obtain ⟨hd1, hd2⟩ := hd
      cases hb : k.b.isConst <;> cases hx : k.x.isConst <;> simp only [hb, hx, true_imp_iff, Bool.false_eq_true, false_imp_iff, and_true] at hc1 hc2 hd1 hd2 <;>
        simp only [if_true, if_false, Bool.false_eq_true, hc1, hc2, hd1, hd2] <;>
        refine alike_ret rfl ⟨?_, ?_⟩ fun _ => ?_ <;> simp [normalVSS, hb, hx]

theorem forgets_normalVVS (k : Kinds) (n : ℕ) : Forgets (normalVVS (α := α) k n) k fun v (c : α × α) => k.b.isConst = true → c.1 = Fn.log (v.b 0) where
  ctor v := ⟨_, rfl, fun h => by simp only [h, if_true]⟩
  congr v w c h hI hk := by rw [hI hk, h.b hk]
  step v := fun (c d : α × α) hc hd => by
    dsimp only [normalVVS]
    by_cases hs : Fn.ble (v.b 0) (0 : α) = true
    · simp only [hs, if_true]
      exact alike_ret rfl hc fun _ => by simp only [normalVVS, hs, Bool.or_true, if_true]
    · simp only [hs, Bool.false_eq_true, if_false]
      cases hk : k.b.isConst
      · exact alike_ret rfl (fun h => by cases h) fun _ => rfl
      · simp only [if_true, hc hk, hd hk]
        exact alike_ret rfl (fun _ => rfl) fun _ => rfl

/-- the part of the state of cases 4 and 5 that depends on the scales only -/
def ScalesKnown (n : ℕ) (b : ℕ → α) (ls : α) (ok : Bool) : Prop :=
  ok = allN n (fun i => Fn.blt 0 (b i)) ∧ (ok = true → ls = sumN n fun i => Fn.log (b i))

theorem scalesKnown_update (n : ℕ) (b : ℕ → α) (ls : α) : ScalesKnown n b (normalVecUpdate n b ls).1 (normalVecUpdate n b ls).2 := by
  unfold normalVecUpdate ScalesKnown
  split <;> simp_all

theorem ScalesKnown.fst {n : ℕ} {b : ℕ → α} {ls ls' : α} {ok ok' : Bool} (h : ScalesKnown n b ls ok) (h' : ScalesKnown n b ls' ok') : ok' = ok := by
  rw [h.1, h'.1]

theorem ScalesKnown.snd {n : ℕ} {b : ℕ → α} {ls ls' : α} {ok ok' : Bool} (h : ScalesKnown n b ls ok) (h' : ScalesKnown n b ls' ok') (hok : ok = true) : ls' = ls := by
  rw [h.2 hok, h'.2 ((h.fst h').trans hok)]

theorem forgets_normalVSV (k : Kinds) (n : ℕ) : Forgets (normalVSV (α := α) k n) k fun v (c : NormalVSVCache α) =>
    k.b.isConst = true → ScalesKnown n v.b c.logSigma c.posDef ∧ (k.x.isConst = true → c.sqTerm = sqNorm n (fun i => v.x i / v.b i) ∧
      c.linTerm = sumN n (fun i => v.x i / (v.b i * v.b i)) ∧ c.constTerm = sqNorm n fun i => 1 / v.b i) where
  ctor v := by
    dsimp only [normalVSV]
    cases hb : k.b.isConst
    · exact ⟨_, rfl, fun h => by cases h⟩
    · cases hx : k.x.isConst
      · exact ⟨_, rfl, fun _ => ⟨scalesKnown_update .., fun h => by cases h⟩⟩
      · exact ⟨_, rfl, fun _ => ⟨scalesKnown_update .., fun _ => ⟨rfl, rfl, rfl⟩⟩⟩
  congr v w c h hI hk := by rw [h.b hk]; exact ⟨(hI hk).1, fun hx => by rw [h.x hx]; exact (hI hk).2 hx⟩
  step v := by
    have key : ∀ c d : NormalVSVCache α, ScalesKnown n v.b c.logSigma c.posDef → ScalesKnown n v.b d.logSigma d.posDef →
        ((k.x.isConst && k.b.isConst) = true → c.sqTerm = sqNorm n (fun i => v.x i / v.b i) ∧ c.linTerm = sumN n (fun i => v.x i / (v.b i * v.b i)) ∧
          c.constTerm = sqNorm n fun i => 1 / v.b i) →
        ((k.x.isConst && k.b.isConst) = true → d.sqTerm = sqNorm n (fun i => v.x i / v.b i) ∧ d.linTerm = sumN n (fun i => v.x i / (v.b i * v.b i)) ∧
          d.constTerm = sqNorm n fun i => 1 / v.b i) →
        Alike (normalVSV k n) (fun v (c : NormalVSVCache α) =>
          k.b.isConst = true → ScalesKnown n v.b c.logSigma c.posDef ∧ (k.x.isConst = true → c.sqTerm = sqNorm n (fun i => v.x i / v.b i) ∧
            c.linTerm = sumN n (fun i => v.x i / (v.b i * v.b i)) ∧ c.constTerm = sqNorm n fun i => 1 / v.b i)) v
          (if c.posDef = false then ret c negInf
            else if k.x.isConst && k.b.isConst then ret c (-half * (c.sqTerm - (1 + 1) * v.a 0 * c.linTerm + v.a 0 * v.a 0 * c.constTerm) - c.logSigma)
            else ret c (-half * sqNorm n (fun i => (v.x i - v.a 0) / v.b i) - c.logSigma))
          (if d.posDef = false then ret d negInf
            else if k.x.isConst && k.b.isConst then ret d (-half * (d.sqTerm - (1 + 1) * v.a 0 * d.linTerm + v.a 0 * v.a 0 * d.constTerm) - d.logSigma)
            else ret d (-half * sqNorm n (fun i => (v.x i - v.a 0) / v.b i) - d.logSigma)) := by
      intro c d hc hd hc2 hd2
      have hcI : k.b.isConst = true → ScalesKnown n v.b c.logSigma c.posDef ∧ (k.x.isConst = true → c.sqTerm = sqNorm n (fun i => v.x i / v.b i) ∧
            c.linTerm = sumN n (fun i => v.x i / (v.b i * v.b i)) ∧ c.constTerm = sqNorm n fun i => 1 / v.b i) :=
        fun h1 => ⟨hc, fun h2 => hc2 (by rw [h1, h2]; rfl)⟩
      obtain ⟨cl, cp, cs, cli, cco⟩ := c
      obtain ⟨dl, dp, ds, dli, dco⟩ := d
      dsimp only at *
      obtain rfl := hc.fst hd
      cases dp
      · rw [if_pos rfl, if_pos rfl]
        exact alike_ret rfl hcI fun _ => by simp [normalVSV]
      · rw [if_neg (show ¬ (true = false) by simp), if_neg (show ¬ (true = false) by simp)]
        obtain rfl := hc.snd hd rfl
        by_cases hx : (k.x.isConst && k.b.isConst) = true
        · rw [if_pos hx, if_pos hx]
          obtain ⟨rfl, rfl, rfl⟩ := hc2 hx
          obtain ⟨rfl, rfl, rfl⟩ := hd2 hx
          exact alike_ret rfl hcI fun _ => rfl
        · rw [if_neg hx, if_neg hx]
          exact alike_ret rfl hcI fun _ => by simp only [normalVSV, hx, ↓reduceIte, Bool.false_eq_true]
    intro c d hc hd
    by_cases hb : k.b.isConst = true
    · have := key c d (hc hb).1 (hd hb).1 (fun h => (hc hb).2 (by simp [hb] at h; exact h)) (fun h => (hd hb).2 (by simp [hb] at h; exact h))
      convert this using 1 <;> simp only [normalVSV, hb, ↓reduceIte]
    · let up (c : NormalVSVCache α) : NormalVSVCache α := { c with logSigma := (normalVecUpdate n v.b c.logSigma).1, posDef := (normalVecUpdate n v.b c.logSigma).2 }
      have := key (up c) (up d) (scalesKnown_update ..) (scalesKnown_update ..) (fun h => by simp [hb] at h) (fun h => by simp [hb] at h)
      convert this using 1 <;> simp only [normalVSV, hb, ↓reduceIte, Bool.false_eq_true, up]

theorem forgets_normalVVV (k : Kinds) (n : ℕ) : Forgets (normalVVV (α := α) k n) k fun v (c : α × Bool) =>
    k.b.isConst = true → ScalesKnown n v.b c.1 c.2 where
  ctor v := ⟨_, rfl, fun h => by simp only [h, if_true]; exact scalesKnown_update ..⟩
  congr v w c h hI hk := by rw [h.b hk]; exact hI hk
  step v := fun (c d : α × Bool) hc hd => by
    dsimp only [normalVVV]
    cases hb : k.b.isConst
    · simp only [Bool.false_eq_true, if_false]
      rw [(scalesKnown_update n v.b c.1).fst (scalesKnown_update n v.b d.1)]
      by_cases hok : (normalVecUpdate n v.b c.1).2 = false
      · simp only [hok, if_true]
        exact alike_ret rfl (fun h => by cases h) fun _ => by simp [normalVVV, hok, (scalesKnown_update n v.b c.1).fst (scalesKnown_update n v.b d.1)]
      · simp only [hok, if_false]
        rw [(scalesKnown_update n v.b c.1).snd (scalesKnown_update n v.b d.1) (by simpa using hok)]
        exact alike_ret rfl (fun h => by cases h) fun _ => by simp [normalVVV, hb, (scalesKnown_update n v.b c.1).fst (scalesKnown_update n v.b d.1)]
    · have c1 := hc hb
      have d1 := hd hb
      simp only [if_true]
      have hcI := hc
      rw [hb] at hcI
      obtain ⟨dl, dp⟩ := d
      obtain ⟨cl, cp⟩ := c
      dsimp only at *
      obtain rfl := c1.fst d1
      cases dp
      · rw [if_pos rfl, if_pos rfl]
        exact alike_ret rfl (fun _ => hcI rfl) fun _ => by simp
      · rw [if_neg (show ¬ (true = false) by simp), if_neg (show ¬ (true = false) by simp)]
        obtain rfl := c1.snd d1 rfl
        exact alike_ret rfl (fun _ => hcI rfl) fun _ => rfl

/-- the part of the state of cases 6 and 7 that depends on the covariance only -/
def NormalMatCache.Known (n : ℕ) (b : ℕ → α) (c : NormalMatCache α) : Prop :=
  c.posDef = LinAlg.lltOk n (trunc (n * n) b) ∧
    (c.posDef = true → c.logDet = Fn.log (LinAlg.lltDetL n (trunc (n * n) b)) ∧ c.inv = LinAlg.symInv n (trunc (n * n) b))

theorem NormalMatCache.known_update (c : NormalMatCache α) (n : ℕ) (b : ℕ → α) : (c.update n b).Known n b := by
  unfold NormalMatCache.update NormalMatCache.Known
  split <;> simp_all

theorem forgets_normalMat (sm : Bool) (k : Kinds) (n : ℕ) : Forgets (normalMat (α := α) sm k n) k fun v (c : NormalMatCache α) =>
    k.b.isConst = true → c.Known n v.b where
  ctor v := ⟨_, rfl, fun h => by simp only [h, if_true]; exact NormalMatCache.known_update ..⟩
  congr v w c h hI hk := by rw [h.b hk]; exact hI hk
  step v := by
    have key : ∀ c d : NormalMatCache α, c.Known n v.b → d.Known n v.b → Alike (normalMat sm k n) (fun v (c : NormalMatCache α) => k.b.isConst = true → c.Known n v.b) v
        (if c.posDef = false then ret c negInf else
          ret { c with z := fun i => sumN n fun j => c.inv (i + j * n) * (v.x j - v.a (if sm then 0 else j)) }
            (-half * (sumN n fun i => (v.x i - v.a (if sm then 0 else i)) * sumN n fun j => c.inv (i + j * n) * (v.x j - v.a (if sm then 0 else j))) - c.logDet))
        (if d.posDef = false then ret d negInf else
          ret { d with z := fun i => sumN n fun j => d.inv (i + j * n) * (v.x j - v.a (if sm then 0 else j)) }
            (-half * (sumN n fun i => (v.x i - v.a (if sm then 0 else i)) * sumN n fun j => d.inv (i + j * n) * (v.x j - v.a (if sm then 0 else j))) - d.logDet)) := by
      intro c d hc hd
      have hcI := hc
      obtain ⟨c1, c2, c3, c4⟩ := c
      obtain ⟨d1, d2, d3, d4⟩ := d
      obtain ⟨hc1, hc2⟩ := hc
      obtain ⟨hd1, hd2⟩ := hd
      dsimp only at *
      obtain rfl : d2 = c2 := by rw [hc1, hd1]
      cases d2
      · rw [if_pos rfl, if_pos rfl]
        exact alike_ret rfl (fun _ => hcI) fun _ => by simp [normalMat]
      · rw [if_neg (show ¬ (true = false) by simp), if_neg (show ¬ (true = false) by simp)]
        obtain ⟨rfl, rfl⟩ := hc2 rfl
        obtain ⟨rfl, rfl⟩ := hd2 rfl
        exact alike_ret rfl (fun _ => ⟨hc1, hc2⟩) fun _ => rfl
    intro c d hc hd
    by_cases hb : k.b.isConst = true
    · have := key c d (hc hb) (hd hb)
      convert this using 1 <;> simp only [normalMat, hb, ↓reduceIte]
    · have := key (NormalMatCache.update c n v.b) (NormalMatCache.update d n v.b) (NormalMatCache.known_update c n v.b) (NormalMatCache.known_update d n v.b)
      convert this using 1 <;> simp only [normalMat, hb, ↓reduceIte, Bool.false_eq_true]

theorem forgets_cauchySSS (k : Kinds) : Forgets (cauchySSS (α := α)) k fun _ _ => True where
  ctor v := ⟨_, rfl, trivial⟩
  congr _ _ _ _ _ := trivial
  step v := fun (c d : α) _ _ => by
    dsimp only [cauchySSS]
    by_cases hs : Fn.blt (0 : α) (v.b 0) = true
    · simp only [hs, if_true]
      exact alike_ret rfl trivial fun _ => rfl
    · simp only [hs, Bool.false_eq_true, if_false]
      exact alike_ret rfl trivial fun _ => by simp [cauchySSS, hs]

theorem forgets_cauchyScl (sl : Bool) (n : ℕ) (k : Kinds) : Forgets (cauchyScl (α := α) sl n) k fun _ _ => True where
  ctor v := ⟨_, rfl, trivial⟩
  congr _ _ _ _ _ := trivial
  step v := fun (c d : Unit) _ _ => by
    cases c
    cases d
    have h : ∃ f, (cauchyScl (α := α) sl n).feval () v = some ((), f) := by
      dsimp only [cauchyScl]
      split <;> exact ⟨_, rfl⟩
    obtain ⟨f, h⟩ := h
    exact ⟨(), (), f, h, h, trivial, fun _ => rfl⟩

theorem forgets_cauchyVec (sl : Bool) (n : ℕ) (k : Kinds) : Forgets (cauchyVec (α := α) sl n) k fun _ _ => True where
  ctor v := ⟨_, rfl, trivial⟩
  congr _ _ _ _ _ := trivial
  step v := fun (c d : Unit) _ _ => by
    cases c
    cases d
    have h : ∃ f, (cauchyVec (α := α) sl n).feval () v = some ((), f) := by
      dsimp only [cauchyVec]
      split <;> exact ⟨_, rfl⟩
    obtain ⟨f, h⟩ := h
    exact ⟨(), (), f, h, h, trivial, fun _ => rfl⟩

theorem forgets_uniformSSS (k : Kinds) : Forgets (uniformSSS (α := α) k) k fun v (c : α) =>
    (k.a.isConst && k.b.isConst) = true → c = Fn.log (v.b 0 - v.a 0) where
  ctor v := ⟨_, rfl, fun h => by simp only [h, if_true]⟩
  congr v w c h hI hk := by
    have hk' := hk
    simp only [Bool.and_eq_true] at hk'
    rw [hI hk, h.a hk'.1, h.b hk'.2]
  step v := fun (c d : α) hc hd => by
    have hc' : (if (k.a.isConst && k.b.isConst) = true then c else Fn.log (v.b 0 - v.a 0)) = Fn.log (v.b 0 - v.a 0) := by
      split
      · exact hc (by assumption)
      · rfl
    have hd' : (if (k.a.isConst && k.b.isConst) = true then d else Fn.log (v.b 0 - v.a 0)) = Fn.log (v.b 0 - v.a 0) := by
      split
      · exact hd (by assumption)
      · rfl
    have e : (uniformSSS k).feval c v = (uniformSSS k).feval d v := by
      dsimp only [uniformSSS]
      rw [hc', hd']
    have h : ∃ f, (uniformSSS k).feval d v = ret (Fn.log (v.b 0 - v.a 0)) f := by
      dsimp only [uniformSSS]
      rw [hd']
      split <;> exact ⟨_, rfl⟩
    obtain ⟨f, h⟩ := h
    rw [e, h]
    exact alike_ret rfl (fun _ => rfl) fun _ => rfl

/-- the part of the state of the uniform vector cases that belongs to the checks of x -/
def UniformCache.XKnown (sa sb : Bool) (n : ℕ) (v : Args α) (c : UniformCache α) : Prop :=
  (sa = true → c.xMin = minCoeff v.x (n - 1)) ∧ (sb = true → c.xMax = maxCoeff v.x (n - 1)) ∧
    (sa = false → c.below = allN n fun i => Fn.blt (v.a i) (v.x i)) ∧ (sb = false → c.above = allN n fun i => Fn.blt (v.x i) (v.b i))

theorem UniformCache.XKnown.within {sa sb : Bool} {n : ℕ} {v : Args α} {c d : UniformCache α} (hc : c.XKnown sa sb n v) (hd : d.XKnown sa sb n v) :
    d.within sa sb v = c.within sa sb v := by
  obtain ⟨c1, c2, c3, c4⟩ := hc
  obtain ⟨d1, d2, d3, d4⟩ := hd
  unfold UniformCache.within
  cases sa <;> cases sb <;> simp_all

theorem UniformCache.xKnown_updateX {sa sb ra rb : Bool} {n : ℕ} (hn : 0 < n) (v : Args α) (c : UniformCache α) (h : ((sa || ra) && (sb || rb)) = true) :
    ∃ c', c.updateX sa sb ra rb n v = some c' ∧ c'.XKnown sa sb n v ∧ c'.logDiff = c.logDiff := by
  obtain ⟨m, rfl⟩ : ∃ m, n = m + 1 := ⟨n - 1, by omega⟩
  simp only [UniformCache.updateX, h, if_true]
  refine ⟨_, rfl, ⟨?_, ?_, ?_, ?_⟩, rfl⟩ <;> intro h <;> simp [h]

theorem forgets_uniformVec (sa sb : Bool) (k : Kinds) (n : ℕ) (hs : (StatOp.uniformVec sa sb).Sound k n) : Forgets (uniformVec (α := α) sa sb k n) k fun v (c : UniformCache α) =>
    ((k.a.isConst && k.b.isConst) = true → c.logDiff = uniformLogDiff sa sb n v) ∧
      (((sa || sb) && k.x.isConst) = true → c.XKnown sa sb n v) := by
  have isC : ∀ a : ArgKind, a.isConst = true ↔ a = .const := by intro a; cases a <;> simp [ArgKind.isConst]
  obtain ⟨hn, hx⟩ := hs
  have full : ∀ (v : Args α) (c : UniformCache α), ((k.a.isConst && k.b.isConst) = true → c.logDiff = uniformLogDiff sa sb n v) →
      (((sa || sb) && k.x.isConst) = true → c.XKnown sa sb n v) →
      ∃ c' : UniformCache α, c'.XKnown sa sb n v ∧ c'.logDiff = uniformLogDiff sa sb n v ∧ (uniformVec sa sb k n).feval c v =
        if c'.within sa sb v then ret c' (if sa && sb then -(n : α) * c'.logDiff else -c'.logDiff) else ret c' negInf := by
    intro v c hc1 hc2
    dsimp only [uniformVec]
    have hlog : (if (k.a.isConst && k.b.isConst) = true then c else { c with logDiff := uniformLogDiff sa sb n v }).logDiff = uniformLogDiff sa sb n v := by
      split
      · exact hc1 (by assumption)
      · rfl
    have hX : ((sa || sb) && k.x.isConst) = true →
        (if (k.a.isConst && k.b.isConst) = true then c else { c with logDiff := uniformLogDiff sa sb n v }).XKnown sa sb n v := by
      intro h
      split
      · exact hc2 h
      · exact hc2 h
    generalize (if (k.a.isConst && k.b.isConst) = true then c else { c with logDiff := uniformLogDiff sa sb n v }) = c0 at hlog hX
    by_cases h1 : (sa || sb) = true
    · simp only [h1, if_true]
      by_cases h2 : k.x.isConst = true
      · simp only [h2, if_true]
        exact ⟨c0, hX (by rw [h1, h2]; rfl), hlog, rfl⟩
      · obtain ⟨c', e1, e2, e3⟩ := UniformCache.xKnown_updateX (ra := true) (rb := true) (sa := sa) (sb := sb) (hn h1) v c0 (by simp)
        simp only [h2, if_false, e1, Bool.false_eq_true]
        exact ⟨c', e2, e3.trans hlog, rfl⟩
    · have h1' : sa = false ∧ sb = false := by simpa using h1
      obtain ⟨rfl, rfl⟩ := h1'
      refine ⟨_, ⟨?_, ?_, ?_, ?_⟩, ?_, rfl⟩
      · intro h; cases h
      · intro h; cases h
      · intro _; rfl
      · intro _; rfl
      · exact hlog
  constructor
  · intro v
    dsimp only [uniformVec]
    by_cases h : ((sa || sb) && k.x.isConst) = true
    · simp only [h, if_true]
      have h' : (sa || sb) = true ∧ k.x = .const := by rw [Bool.and_eq_true, isC] at h; exact h
      obtain ⟨c', e1, e2, e3⟩ := UniformCache.xKnown_updateX (ra := k.a.hasMemory) (rb := k.b.hasMemory) (sa := sa) (sb := sb) (hn h'.1) v
        ⟨if (k.a.isConst && k.b.isConst) = true then uniformLogDiff sa sb n v else 0, 0, 0, false, false⟩ (by
          have := hx h'.2
          cases sa <;> cases sb <;> simp at this h' ⊢ <;> rw [this] <;> rfl)
      refine ⟨c', e1, fun hk => ?_, fun _ => e2⟩
      rw [e3]
      simp only [hk, if_true]
    · simp only [h, if_false, Bool.false_eq_true]
      exact ⟨_, rfl, fun hk => by simp only [hk, if_true], fun h => h.elim⟩
  · intro v w c h hI
    refine ⟨fun hk => ?_, fun hk => ?_⟩
    · rw [hI.1 hk]
      rw [Bool.and_eq_true] at hk
      unfold uniformLogDiff
      rw [h.a hk.1, h.b hk.2]
    · obtain ⟨i1, i2, i3, i4⟩ := hI.2 hk
      have hk' : (sa || sb) = true ∧ k.x.isConst = true := by simpa only [Bool.and_eq_true] using hk
      have hc := hx ((isC _).1 hk'.2)
      refine ⟨fun e => ?_, fun e => ?_, fun e => ?_, fun e => ?_⟩
      · rw [h.x hk'.2]; exact i1 e
      · rw [h.x hk'.2]; exact i2 e
      · have : sa ≠ sb := by rintro rfl; rw [e] at hk'; simp at hk'
        rw [h.x hk'.2, h.a ((isC _).2 ((hc this).1 e))]; exact i3 e
      · have : sa ≠ sb := by rintro rfl; rw [e] at hk'; simp at hk'
        rw [h.x hk'.2, h.b ((isC _).2 ((hc this).2 e))]; exact i4 e
  · intro v c d hc hd
    obtain ⟨c', c1, c2, c3⟩ := full v c hc.1 hc.2
    obtain ⟨d', d1, d2, d3⟩ := full v d hd.1 hd.2
    rw [c3, d3, c1.within d1, c2, d2]
    have hb : ∀ seed, (uniformVec sa sb k n).beval c' v seed = (uniformVec sa sb k n).beval d' v seed := by
      intro seed
      dsimp only [uniformVec]
      rw [c1.within d1]
    split
    · exact alike_ret rfl ⟨fun _ => c2, fun _ => c1⟩ hb
    · exact alike_ret rfl ⟨fun _ => c2, fun _ => c1⟩ hb

/-- `(log_p_, log_p_dual_)` are up to date, or irrelevant -/
def LogsKnown (p : α) (c : α × α) : Prop := bernoulliIn p = true → c = (Fn.log p, Fn.log (1 - p))

theorem logsKnown_update (p : α) (c : α × α) : LogsKnown p (bernoulliUpdate p c) := by
  intro h
  simp only [bernoulliUpdate, h, if_true]

theorem forgets_bernoulliSS (k : Kinds) : Forgets (bernoulliSS (α := α) k) k fun v (c : α × α) => k.a.isConst = true → LogsKnown (v.a 0) c where
  ctor v := ⟨_, rfl, fun h => by simp only [h, if_true]; exact logsKnown_update _ _⟩
  congr v w c h hI hk := by rw [h.a hk]; exact hI hk
  step v := fun (c d : α × α) hc hd => by
    have up : ∀ c : α × α, (k.a.isConst = true → LogsKnown (v.a 0) c) → LogsKnown (v.a 0) (if k.a.isConst then c else bernoulliUpdate (v.a 0) c) := by
      intro c h
      split
      · exact h (by assumption)
      · exact logsKnown_update _ _
    have e : ∃ f, ∀ c, (k.a.isConst = true → LogsKnown (v.a 0) c) → ∃ c', LogsKnown (v.a 0) c' ∧ (bernoulliSS k).feval c v = ret c' f := by
      by_cases h : bernoulliIn (v.a 0) = true
      · refine ⟨if Fn.beq (v.x 0) 0 then Fn.log (1 - v.a 0) else if Fn.beq (v.x 0) 1 then Fn.log (v.a 0) else negInf, fun c hc => ⟨_, up c hc, ?_⟩⟩
        dsimp only [bernoulliSS]
        have := up c hc h
        generalize (if k.a.isConst = true then c else bernoulliUpdate (v.a 0) c) = c0 at this
        subst this
        simp only [h, Bool.not_true, Bool.false_eq_true, if_false]
        split
        · rfl
        · split <;> rfl
      · refine ⟨if Fn.ble (v.a 0) 0 then (if Fn.beq (v.x 0) 0 then 0 else negInf) else (if Fn.beq (v.x 0) 1 then 0 else negInf), fun c hc => ⟨_, up c hc, ?_⟩⟩
        dsimp only [bernoulliSS]
        simp only [h, Bool.not_false, if_true]
        split <;> rfl
    obtain ⟨f, e⟩ := e
    obtain ⟨c', c1, c2⟩ := e c hc
    obtain ⟨d', d1, d2⟩ := e d hd
    rw [c2, d2]
    exact alike_ret rfl (fun _ => c1) fun _ => rfl

theorem forgets_bernoulliVS (k : Kinds) (n : ℕ) : Forgets (bernoulliVS (α := α) k n) k fun v (c : BernoulliCache α) =>
    (k.a.isConst = true → LogsKnown (v.a 0) c.logs) ∧ (k.x.isConst = true → c.zeroOne = zeroOneN n v.x ∧ c.xSum = sumN n v.x) where
  ctor v := ⟨_, rfl, fun h => by simp only [h, if_true]; exact logsKnown_update _ _, fun h => by simp only [h, if_true, and_self]⟩
  congr v w c h hI := ⟨fun hk => by rw [h.a hk]; exact hI.1 hk, fun hk => by rw [h.x hk]; exact hI.2 hk⟩
  step v := fun (c d : BernoulliCache α) hc hd => by
    have up : ∀ c : BernoulliCache α, (k.a.isConst = true → LogsKnown (v.a 0) c.logs) ∧ (k.x.isConst = true → c.zeroOne = zeroOneN n v.x ∧ c.xSum = sumN n v.x) →
        ∃ c' : BernoulliCache α, LogsKnown (v.a 0) c'.logs ∧ c'.zeroOne = zeroOneN n v.x ∧ c'.xSum = sumN n v.x ∧
        (bernoulliVS k n).feval c v =
          if !bernoulliIn (v.a 0) then
            if Fn.ble (v.a 0) 0 then ret c' (if Fn.beq c'.xSum 0 && c'.zeroOne then 0 else negInf)
            else ret c' (if Fn.beq c'.xSum (n : α) && c'.zeroOne then 0 else negInf)
          else if c'.zeroOne then ret c' (c'.xSum * c'.logs.1 + ((n : α) - c'.xSum) * c'.logs.2)
          else ret c' negInf := by
      intro c h
      refine ⟨if k.x.isConst then (if k.a.isConst then c else { c with logs := bernoulliUpdate (v.a 0) c.logs }) else
        { (if k.a.isConst then c else { c with logs := bernoulliUpdate (v.a 0) c.logs }) with zeroOne := zeroOneN n v.x, xSum := sumN n v.x }, ?_, ?_, ?_, rfl⟩
      · have : LogsKnown (v.a 0) (if k.a.isConst then c else { c with logs := bernoulliUpdate (v.a 0) c.logs }).logs := by
          split
          · exact h.1 (by assumption)
          · exact logsKnown_update _ _
        split <;> exact this
      · by_cases hx : k.x.isConst = true
        · simp only [hx, if_true]
          split <;> exact (h.2 hx).1
        · simp only [hx, if_false, Bool.false_eq_true]
      · by_cases hx : k.x.isConst = true
        · simp only [hx, if_true]
          split <;> exact (h.2 hx).2
        · simp only [hx, if_false, Bool.false_eq_true]
    obtain ⟨c', c1, c2, c3, c4⟩ := up c hc
    obtain ⟨d', d1, d2, d3, d4⟩ := up d hd
    have hb : ∀ seed, (bernoulliVS k n).beval c' v seed = (bernoulliVS k n).beval d' v seed := by
      intro seed
      dsimp only [bernoulliVS]
      rw [c2, c3, d2, d3]
    have hI : (k.a.isConst = true → LogsKnown (v.a 0) c'.logs) ∧ (k.x.isConst = true → c'.zeroOne = zeroOneN n v.x ∧ c'.xSum = sumN n v.x) :=
      ⟨fun _ => c1, fun _ => ⟨c2, c3⟩⟩
    rw [c4, d4]
    by_cases h : bernoulliIn (v.a 0) = true
    · have h' : ¬ ((!bernoulliIn (v.a 0)) = true) := by simp [h]
      rw [if_neg h', if_neg h']
      rw [c2, c3, d2, d3, c1 h, d1 h]
      split
      · exact alike_ret rfl hI hb
      · exact alike_ret rfl hI hb
    · have h' : (!bernoulliIn (v.a 0)) = true := by simp [h]
      rw [if_pos h', if_pos h']
      rw [c2, c3, d2, d3]
      split
      · exact alike_ret rfl hI hb
      · exact alike_ret rfl hI hb

theorem forgets_bernoulliVV (k : Kinds) (n : ℕ) : Forgets (bernoulliVV (α := α) k n) k fun v (c : Bool × Bool) =>
    (k.a.isConst = true → c.1 = allN n fun i => bernoulliIn (v.a i)) ∧ (k.x.isConst = true → c.2 = zeroOneN n v.x) where
  ctor v := ⟨_, rfl, fun h => by simp only [h, if_true], fun h => by simp only [h, if_true]⟩
  congr v w c h hI := ⟨fun hk => by rw [h.a hk]; exact hI.1 hk, fun hk => by rw [h.x hk]; exact hI.2 hk⟩
  step v := by
    have up : ∃ f, ∀ c : Bool × Bool, (k.a.isConst = true → c.1 = allN n fun i => bernoulliIn (v.a i)) ∧ (k.x.isConst = true → c.2 = zeroOneN n v.x) →
        (bernoulliVV k n).feval c v = ret ((allN n fun i => bernoulliIn (v.a i), zeroOneN n v.x) : Bool × Bool) f := by
      refine ⟨if zeroOneN n v.x then if allN n (fun i => bernoulliIn (v.a i)) = false then (bernoulliLoop v.x v.a n).getD negInf else
        sumN n fun i => Fn.log (v.x i * v.a i + (1 - v.x i) * (1 - v.a i)) else negInf, fun c h => ?_⟩
      have e1 : (if k.a.isConst = true then c.1 else allN n fun i => bernoulliIn (v.a i)) = allN n fun i => bernoulliIn (v.a i) := by
        split
        · exact h.1 (by assumption)
        · rfl
      have e2 : (if k.x.isConst = true then c.2 else zeroOneN n v.x) = zeroOneN n v.x := by
        split
        · exact h.2 (by assumption)
        · rfl
      dsimp only [bernoulliVV]
      rw [e1, e2]
      split
      · split <;> rfl
      · rfl
    obtain ⟨f, up⟩ := up
    intro c d hc hd
    rw [up c hc, up d hd]
    exact alike_ret rfl ⟨fun _ => rfl, fun _ => rfl⟩ fun _ => rfl

/-- the data members that belong to v -/
def WishartCache.VKnown (p : ℕ) (V : ℕ → α) (c : WishartCache α) : Prop :=
  c.vOk = LinAlg.lltOk p (trunc (p * p) V) ∧
    (c.vOk = true → c.logV = Fn.log (LinAlg.lltDetL p (trunc (p * p) V)) ∧ c.vInv = LinAlg.symInv p (trunc (p * p) V))

/-- the data members that belong to x (and v) -/
def WishartCache.XKnown (p : ℕ) (X V : ℕ → α) (c : WishartCache α) : Prop :=
  c.vOk = true → c.xOk = LinAlg.lltOk p (trunc (p * p) X) ∧
    (c.xOk = true → c.logX = Fn.log (LinAlg.lltDetL p (trunc (p * p) X)) ∧ c.xInv = LinAlg.symInv p (trunc (p * p) X) ∧
      c.xvInv = mul2 p X (LinAlg.symInv p (trunc (p * p) V)))

theorem WishartCache.vKnown_updateV (p : ℕ) (V : ℕ → α) (c : WishartCache α) : (c.updateV p V).VKnown p V := by
  unfold WishartCache.updateV WishartCache.VKnown
  split <;> simp_all

theorem WishartCache.vKnown_updateX {p : ℕ} {V : ℕ → α} {c : WishartCache α} (X : ℕ → α) (h : c.VKnown p V) : (c.updateX p X).VKnown p V := by
  unfold WishartCache.updateX
  split
  · split <;> exact h
  · exact h

theorem WishartCache.xKnown_updateX {p : ℕ} {V : ℕ → α} {c : WishartCache α} (X : ℕ → α) (h : c.VKnown p V) : (c.updateX p X).XKnown p X V := by
  unfold WishartCache.updateX
  intro hv
  split at hv
  · rename_i hok
    rw [if_pos hok]
    have := (h.2 hok).2
    split <;> simp_all
  · rename_i hok
    exact absurd hv hok

theorem forgets_wishart (k : Kinds) (p : ℕ) (hs : k.x = .const → k.a = .const) : Forgets (wishart (α := α) k p) k fun v (c : WishartCache α) =>
    (k.a.isConst = true → c.VKnown p v.a) ∧ (k.x.isConst = true → c.XKnown p v.x v.a) := by
  have isC : ∀ a : ArgKind, a.isConst = true ↔ a = .const := by intro a; cases a <;> simp [ArgKind.isConst]
  have hs' : k.x.isConst = true → k.a.isConst = true := fun h => (isC _).2 (hs ((isC _).1 h))
  constructor
  · intro v
    refine ⟨_, rfl, fun h => ?_, fun h => ?_⟩
    · simp only [h, if_true]
      split
      · exact WishartCache.vKnown_updateX _ (WishartCache.vKnown_updateV ..)
      · exact WishartCache.vKnown_updateV ..
    · simp only [h, hs' h, if_true]
      exact WishartCache.xKnown_updateX _ (WishartCache.vKnown_updateV ..)
  · intro v w c h hI
    exact ⟨fun hk => by rw [h.a hk]; exact hI.1 hk, fun hk => by rw [h.a (hs' hk), h.x hk]; exact hI.2 hk⟩
  · intro v
    have up : ∀ c : WishartCache α, (k.a.isConst = true → c.VKnown p v.a) ∧ (k.x.isConst = true → c.XKnown p v.x v.a) →
        ∃ c' : WishartCache α, c'.VKnown p v.a ∧ c'.XKnown p v.x v.a ∧ (wishart k p).feval c v =
          if c'.valid p (v.b 0) then ret c' ((v.b 0 - (p : α) - 1) * c'.logX - half * sumN p (fun i => c'.xvInv (i + i * p)) - v.b 0 * c'.logV) else ret c' negInf := by
      intro c h
      have h1 : (if k.a.isConst then c else c.updateV p v.a).VKnown p v.a := by
        split
        · exact h.1 (by assumption)
        · exact WishartCache.vKnown_updateV ..
      refine ⟨if k.x.isConst then (if k.a.isConst then c else c.updateV p v.a) else (if k.a.isConst then c else c.updateV p v.a).updateX p v.x, ?_, ?_, rfl⟩
      · split
        · exact h1
        · exact WishartCache.vKnown_updateX _ h1
      · by_cases hx : k.x.isConst = true
        · simp only [hx, hs' hx, if_true]
          exact h.2 hx
        · simp only [hx, if_false, Bool.false_eq_true]
          exact WishartCache.xKnown_updateX _ h1
    intro c d hc hd
    obtain ⟨c', c1, c2, c3⟩ := up c hc
    obtain ⟨d', d1, d2, d3⟩ := up d hd
    have hI : (k.a.isConst = true → c'.VKnown p v.a) ∧ (k.x.isConst = true → c'.XKnown p v.x v.a) := ⟨fun _ => c1, fun _ => c2⟩
    have hv : d'.vOk = c'.vOk := by rw [c1.1, d1.1]
    have hval : d'.valid p (v.b 0) = c'.valid p (v.b 0) := by
      unfold WishartCache.valid
      rw [hv]
      by_cases h : c'.vOk = true
      · rw [(c2 h).1, (d2 (hv.trans h)).1]
      · simp [h]
    rw [c3, d3, hval]
    by_cases h : c'.valid p (v.b 0) = true
    · have hvx : c'.xOk = true ∧ c'.vOk = true := by
        simp only [WishartCache.valid, Bool.and_eq_true] at h
        exact h.1
      have hvx' : d'.xOk = true ∧ d'.vOk = true := by
        rw [← hval] at h
        simp only [WishartCache.valid, Bool.and_eq_true] at h
        exact h.1
      obtain ⟨cv1, cv2⟩ := c1.2 hvx.2
      obtain ⟨dv1, dv2⟩ := d1.2 hvx'.2
      obtain ⟨cx1, cx2, cx3⟩ := (c2 hvx.2).2 hvx.1
      obtain ⟨dx1, dx2, dx3⟩ := (d2 hvx'.2).2 hvx'.1
      rw [if_pos h, if_pos h]
      refine alike_ret ?_ hI fun seed => ?_
      · rw [cv1, cx1, cx3, dv1, dx1, dx3]
      · dsimp only [wishart]
        rw [hval, cv2, cx2, cx3, dv2, dx2, dx3]
    · rw [if_neg h, if_neg h]
      refine alike_ret rfl hI fun seed => ?_
      dsimp only [wishart]
      rw [hval]
      simp only [h, Bool.not_false, Bool.or_true, if_true]

/-- **The history of a log-density node does not matter** as long as its constant operands keep their values: whatever the operand values were at construction and at earlier
evaluations, an evaluation gives the value, and the following `beval` the seeds, of a node constructed just now. -/
theorem stat_history_irrelevant (o : StatOp) (k : Kinds) (n : ℕ) (hs : o.Sound k n) {v0 v : Args α} {h : List (Args α)} (hc : ∀ w ∈ v :: h, SameConsts k v0 w) :
    ∃ c c' d f, (o.node k n).run v0 h = some c ∧ (o.node k n).feval c v = some (c', f) ∧ (o.node k n).once v = some (d, f) ∧
      ∀ seed, (o.node k n).beval c' v seed = (o.node k n).beval d v seed := by
  cases o with
  | normalSSS => exact (forgets_normalSSS k).history hc
  | normalVSS => exact (forgets_normalVSS k n hs).history hc
  | normalVVS => exact (forgets_normalVVS k n).history hc
  | normalVSV => exact (forgets_normalVSV k n).history hc
  | normalVVV => exact (forgets_normalVVV k n).history hc
  | normalMat sm => exact (forgets_normalMat sm k n).history hc
  | cauchySSS => exact (forgets_cauchySSS k).history hc
  | cauchyScl sl => exact (forgets_cauchyScl sl n k).history hc
  | cauchyVec sl => exact (forgets_cauchyVec sl n k).history hc
  | uniformSSS => exact (forgets_uniformSSS k).history hc
  | uniformVec sa sb => exact (forgets_uniformVec sa sb k n hs).history hc
  | bernoulliSS => exact (forgets_bernoulliSS k).history hc
  | bernoulliVS => exact (forgets_bernoulliVS k n).history hc
  | bernoulliVV => exact (forgets_bernoulliVV k n).history hc
  | wishart => exact (forgets_wishart k n hs.2).history hc

end FastAD
