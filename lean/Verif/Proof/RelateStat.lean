import Verif.Proof.Relate

/-!
# What the elementary log-density nodes compute, over any arithmetic
-/

namespace FastAD

set_option linter.unusedSectionVars false

variable {α : Type} [Zero α] [One α] [Add α] [Sub α] [Neg α] [Mul α] [Div α] [NatCast α]
variable [Fn α] [HasInf α] [LinAlg α]

/-- seeds of the three operands -/
def slotFn (fx fa fb : ℕ → α) : Slot → ℕ → α
  | .x => fx
  | .a => fa
  | .b => fb

/-- the third operand is seeded unless it is a constant -/
def seeded (k : Kinds) (l : List Slot) : List Slot := (if k.b.isConst then [] else [.b]) ++ l

theorem guard_seed {X : Type} (a b : Bool) (hb : b = false) (l : List X) : (if (a || b) = true then [] else l) = if a = true then [] else l := by subst hb; simp

theorem isConst_const {k : ArgKind} (h : k.isConst = true) : k = .const := by cases k <;> simp_all [ArgKind.isConst]

/-! ### Normal -/

def ySSS (v : Args α) : α := -half * ((v.x 0 - v.a 0) / v.b 0) * ((v.x 0 - v.a 0) / v.b 0) - Fn.log (v.b 0)

def sdSSS (v : Args α) (s : α) : Slot → ℕ → α :=
  let invS := 1 / v.b 0
  let z := (v.x 0 - v.a 0) * invS
  slotFn (fun _ => -(s * z * invS)) (fun _ => s * z * invS) (fun _ => s * (z * z - 1) * invS)

theorem out_normalSSS (k : Kinds) {v : Args α} (h : Fn.ble (v.b 0) 0 = false) : NodeOut (normalSSS k) v (ySSS v) (seeded k [.a, .x]) (sdSSS v) := by
  refine ⟨(Fn.log (v.b 0) : α), ?_, fun s => ?_⟩
  · cases hb : k.b.isConst <;> simp [StatNode.once, normalSSS, h, ret, hb, ySSS]
  · simp only [normalSSS]
    rw [guard_seed _ _ h]
    cases hb : k.b.isConst <;> simp [seeded, hb, sdSSS, slotFn]

def yVSS (c : Bool) (n : ℕ) (v : Args α) : α :=
  if c then
    let m := sumN n v.x / (n : α);
    -half * (1 / (v.b 0 * v.b 0)) * (sqNorm n (fun i => v.x i - m) + (n : α) * (v.a 0 - m) * (v.a 0 - m)) - (n : α) * Fn.log (v.b 0)
  else -half * (sqNorm n (fun i => v.x i - v.a 0) / (v.b 0 * v.b 0)) - (n : α) * Fn.log (v.b 0)

def sdVSS (c : Bool) (n : ℕ) (v : Args α) (s : α) : Slot → ℕ → α :=
  let invS := 1 / v.b 0
  let invSq := invS * invS
  if c then
    let m := sumN n v.x / (n : α)
    let d := v.a 0 - m
    slotFn (fun _ => 0) (fun _ => s * ((n : α) * (m - v.a 0) * invSq))
      (fun _ => s * (((sqNorm n (fun i => v.x i - m) + (n : α) * d * d) * invSq - (n : α)) * invS))
  else slotFn (fun i => (s * invSq) * (v.a 0 - v.x i)) (fun _ => s * (sumN n (fun i => v.x i - v.a 0) * invSq))
      (fun _ => s * (sqNorm n (fun i => v.x i - v.a 0) / (v.b 0 * v.b 0) - (n : α)) * invS)

theorem out_normalVSS (k : Kinds) (n : ℕ) (hn : k.x = .const → 0 < n) {v : Args α} (h : Fn.ble (v.b 0) 0 = false) :
    NodeOut (normalVSS k n) v (yVSS k.x.isConst n v) (seeded k (if k.x.isConst then [.a] else [.a, .x])) (sdVSS k.x.isConst n v) := by
  cases hx : k.x.isConst
  · refine ⟨⟨Fn.log (v.b 0), sqNorm n (fun i => v.x i - v.a 0) / (v.b 0 * v.b 0), 0, 0⟩, ?_, fun s => ?_⟩
    · cases hb : k.b.isConst <;> simp [StatNode.once, normalVSS, h, ret, hb, hx, yVSS]
    · simp only [normalVSS]
      rw [guard_seed _ _ h]
      cases hb : k.b.isConst <;> simp [seeded, hb, hx, sdVSS, slotFn]
  · have hn : n ≠ 0 := (hn (isConst_const hx)).ne'
    refine ⟨⟨Fn.log (v.b 0), 0, sumN n v.x / (n : α), sqNorm n fun i => v.x i - sumN n v.x / (n : α)⟩, ?_, fun s => ?_⟩
    · cases hb : k.b.isConst <;> simp [StatNode.once, normalVSS, h, ret, hb, hx, yVSS, hn]
    · simp only [normalVSS]
      rw [guard_seed _ _ h]
      cases hb : k.b.isConst <;> simp [seeded, hb, hx, sdVSS, slotFn]

def yVVS (n : ℕ) (v : Args α) : α := -half * (sqNorm n (fun i => v.x i - v.a i) / (v.b 0 * v.b 0)) - (n : α) * Fn.log (v.b 0)

def sdVVS (n : ℕ) (v : Args α) (s : α) : Slot → ℕ → α :=
  let invS := 1 / v.b 0
  let invSq := invS * invS
  slotFn (fun i => (s * invSq) * (v.a i - v.x i)) (fun i => (s * invSq) * (v.x i - v.a i))
    (fun _ => s * (sqNorm n (fun i => v.x i - v.a i) / (v.b 0 * v.b 0) - (n : α)) * invS)

theorem out_normalVVS (k : Kinds) (n : ℕ) {v : Args α} (h : Fn.ble (v.b 0) 0 = false) : NodeOut (normalVVS k n) v (yVVS n v) (seeded k [.a, .x]) (sdVVS n v) := by
  refine ⟨(Fn.log (v.b 0), sqNorm n (fun i => v.x i - v.a i) / (v.b 0 * v.b 0)), ?_, fun s => ?_⟩
  · cases hb : k.b.isConst <;> simp [StatNode.once, normalVVS, h, ret, hb, yVVS]
  · simp only [normalVVS]
    rw [guard_seed _ _ h]
    cases hb : k.b.isConst <;> simp [seeded, hb, sdVVS, slotFn]

theorem allN_of {n : ℕ} {p : ℕ → Bool} (h : ∀ i < n, p i = true) : allN n p = true := by
  simp only [allN, List.all_eq_true, List.mem_range]; exact h

theorem vecUpdate_of {n : ℕ} {b : ℕ → α} (h : ∀ i < n, Fn.blt 0 (b i) = true) (ls : α) : normalVecUpdate n b ls = (sumN n fun i => Fn.log (b i), true) := by
  rw [normalVecUpdate, if_pos (allN_of h)]

def yVSV (c : Bool) (n : ℕ) (v : Args α) : α :=
  if c then
    -half * (sqNorm n (fun i => v.x i / v.b i) - (1 + 1) * v.a 0 * sumN n (fun i => v.x i / (v.b i * v.b i)) + v.a 0 * v.a 0 * sqNorm n (fun i => 1 / v.b i)) -
      sumN n fun i => Fn.log (v.b i)
  else -half * sqNorm n (fun i => (v.x i - v.a 0) / v.b i) - sumN n fun i => Fn.log (v.b i)

def sdVSV (c : Bool) (n : ℕ) (v : Args α) (s : α) : Slot → ℕ → α :=
  if c then slotFn (fun _ => 0) (fun _ => s * (sumN n (fun i => v.x i / (v.b i * v.b i)) - v.a 0 * sqNorm n (fun i => 1 / v.b i))) (fun _ => 0)
  else slotFn (fun i => (s / (v.b i * v.b i)) * (v.a 0 - v.x i)) (fun _ => s * sumN n (fun i => (v.x i - v.a 0) / (v.b i * v.b i)))
    (fun i => (s / v.b i) * (((v.x i - v.a 0) / v.b i) * ((v.x i - v.a 0) / v.b i) - 1))

theorem out_normalVSV (k : Kinds) (n : ℕ) {v : Args α} (h : ∀ i < n, Fn.blt 0 (v.b i) = true) :
    NodeOut (normalVSV k n) v (yVSV (k.x.isConst && k.b.isConst) n v) (if k.x.isConst && k.b.isConst then [.a] else seeded k [.a, .x])
      (sdVSV (k.x.isConst && k.b.isConst) n v) := by
  have hu := vecUpdate_of h
  cases hx : k.x.isConst <;> cases hb : k.b.isConst
  · refine ⟨⟨sumN n fun i => Fn.log (v.b i), true, 0, 0, 0⟩, by simp [StatNode.once, normalVSV, hu, ret, hb, hx, yVSV], fun s => ?_⟩
    simp only [normalVSV]
    rw [guard_seed _ (!true) rfl]
    simp [seeded, hb, hx, sdVSV, slotFn]
  · refine ⟨⟨sumN n fun i => Fn.log (v.b i), true, 0, 0, 0⟩, by simp [StatNode.once, normalVSV, hu, ret, hb, hx, yVSV], fun s => ?_⟩
    simp only [normalVSV]
    rw [guard_seed _ (!true) rfl]
    simp [seeded, hb, hx, sdVSV, slotFn]
  · refine ⟨⟨sumN n fun i => Fn.log (v.b i), true, 0, 0, 0⟩, by simp [StatNode.once, normalVSV, hu, ret, hb, hx, yVSV], fun s => ?_⟩
    simp only [normalVSV]
    rw [guard_seed _ (!true) rfl]
    simp [seeded, hb, hx, sdVSV, slotFn]
  · refine ⟨⟨sumN n fun i => Fn.log (v.b i), true, sqNorm n (fun i => v.x i / v.b i), sumN n (fun i => v.x i / (v.b i * v.b i)), sqNorm n (fun i => 1 / v.b i)⟩,
      by simp [StatNode.once, normalVSV, hu, ret, hb, hx, yVSV], fun s => ?_⟩
    simp only [normalVSV]
    rw [guard_seed _ (!true) rfl]
    simp [seeded, hb, hx, sdVSV, slotFn]

def yVVV (n : ℕ) (v : Args α) : α := -half * sqNorm n (fun i => (v.x i - v.a i) / v.b i) - sumN n fun i => Fn.log (v.b i)

def sdVVV (v : Args α) (s : α) : Slot → ℕ → α :=
  slotFn (fun i => s * (v.a i - v.x i) / (v.b i * v.b i)) (fun i => s * (v.x i - v.a i) / (v.b i * v.b i))
    (fun i => (s / v.b i) * (((v.x i - v.a i) / v.b i) * ((v.x i - v.a i) / v.b i) - 1))

theorem out_normalVVV (k : Kinds) (n : ℕ) {v : Args α} (h : ∀ i < n, Fn.blt 0 (v.b i) = true) : NodeOut (normalVVV k n) v (yVVV n v) (seeded k [.a, .x]) (sdVVV v) := by
  refine ⟨(sumN n fun i => Fn.log (v.b i), true), ?_, fun s => ?_⟩
  · cases hb : k.b.isConst <;> simp [StatNode.once, normalVVV, vecUpdate_of h, ret, hb, yVVV]
  · simp only [normalVVV]
    rw [guard_seed _ (!true) rfl]
    cases hb : k.b.isConst <;> simp [seeded, hb, sdVVV, slotFn]

/-! ### Cauchy -/

def yCauchy (v : Args α) : α := -Fn.log (v.b 0 + ((v.x 0 - v.a 0) * (v.x 0 - v.a 0)) / v.b 0)

def sdCauchy (v : Args α) (s : α) : Slot → ℕ → α :=
  let diff := v.x 0 - v.a 0
  let x0 := (1 + 1) * diff / (v.b 0 * (v.b 0 + (diff * diff) / v.b 0))
  slotFn (fun _ => s * -x0) (fun _ => s * x0) (fun _ => s * (1 / v.b 0 * (x0 * diff - 1)))

theorem out_cauchySSS {v : Args α} (h : Fn.blt 0 (v.b 0) = true) : NodeOut cauchySSS v (yCauchy v) [.b, .a, .x] (sdCauchy v) := by
  refine ⟨(v.b 0 + ((v.x 0 - v.a 0) * (v.x 0 - v.a 0)) / v.b 0 : α), by simp [StatNode.once, cauchySSS, h, ret, yCauchy], fun s => ?_⟩
  simp only [cauchySSS]
  rw [guard_seed _ _ (by simp [h])]
  simp [sdCauchy, slotFn]

/-! ### Uniform -/

def yUnif (v : Args α) : α := -Fn.log (v.b 0 - v.a 0)

def sdUnif (v : Args α) (s : α) : Slot → ℕ → α := slotFn (fun _ => 0) (fun _ => s / (v.b 0 - v.a 0)) (fun _ => -(s / (v.b 0 - v.a 0)))

theorem out_uniformSSS (k : Kinds) {v : Args α} (h1 : Fn.blt (v.a 0) (v.x 0) = true) (h2 : Fn.blt (v.x 0) (v.b 0) = true) :
    NodeOut (uniformSSS k) v (yUnif v) [.b, .a] (sdUnif v) := by
  refine ⟨(Fn.log (v.b 0 - v.a 0) : α), ?_, fun s => ?_⟩
  · cases ha : k.a.isConst <;> cases hb : k.b.isConst <;> simp [StatNode.once, uniformSSS, h1, h2, ret, ha, hb, yUnif]
  · simp only [uniformSSS]
    rw [guard_seed _ _ (by simp [h1, h2])]
    simp [sdUnif, slotFn]

theorem minCoeff_mem (f : ℕ → α) : ∀ m, ∃ i ≤ m, minCoeff f m = f i
  | 0 => ⟨0, le_refl _, rfl⟩
  | m + 1 => by
    obtain ⟨i, hi, h⟩ := minCoeff_mem f m
    rw [minCoeff]
    split
    · exact ⟨m + 1, le_refl _, rfl⟩
    · exact ⟨i, by omega, h⟩

theorem maxCoeff_mem (f : ℕ → α) : ∀ m, ∃ i ≤ m, maxCoeff f m = f i
  | 0 => ⟨0, le_refl _, rfl⟩
  | m + 1 => by
    obtain ⟨i, hi, h⟩ := maxCoeff_mem f m
    rw [maxCoeff]
    split
    · exact ⟨m + 1, le_refl _, rfl⟩
    · exact ⟨i, by omega, h⟩

def yUnifV (sa sb : Bool) (n : ℕ) (v : Args α) : α := if sa && sb then -(n : α) * uniformLogDiff sa sb n v else -uniformLogDiff sa sb n v

def sdUnifV (sa sb : Bool) (n : ℕ) (v : Args α) (s : α) : Slot → ℕ → α :=
  if sa && sb then slotFn (fun _ => 0) (fun _ => s * (n : α) / (v.b 0 - v.a 0)) (fun _ => -(s * (n : α) / (v.b 0 - v.a 0)))
  else
    let diff := fun i => v.b (if sb then 0 else i) - v.a (if sa then 0 else i)
    slotFn (fun _ => 0) (if sa then fun _ => s * sumN n (fun i => 1 / diff i) else fun i => s / diff i)
      (if sb then fun _ => (-s) * sumN n (fun i => 1 / diff i) else fun i => (-s) / diff i)

theorem out_uniformVec (sa sb : Bool) (k : Kinds) (n : ℕ) (hs : (StatOp.uniformVec sa sb).Sound k n) {v : Args α}
    (h1 : ∀ i < n, Fn.blt (v.a (pidx sa i)) (v.x i) = true) (h2 : ∀ i < n, Fn.blt (v.x i) (v.b (pidx sb i)) = true) :
    NodeOut (uniformVec sa sb k n) v (yUnifV sa sb n v) [.b, .a] (sdUnifV sa sb n v) := by
  have key : ∃ c : UniformCache α, (uniformVec sa sb k n).once v = (if c.within sa sb v then ret c (if sa && sb then -(n : α) * c.logDiff else -c.logDiff) else ret c negInf) ∧
      c.within sa sb v = true ∧ c.logDiff = uniformLogDiff sa sb n v := by
    by_cases hab : (sa || sb) = true
    · obtain ⟨m, rfl⟩ : ∃ m, n = m + 1 := ⟨n - 1, by have := hs.1 hab; omega⟩
      refine ⟨⟨uniformLogDiff sa sb (m + 1) v, if sa then minCoeff v.x m else 0, if sb then maxCoeff v.x m else 0,
        if sa then false else allN (m + 1) fun i => Fn.blt (v.a i) (v.x i), if sb then false else allN (m + 1) fun i => Fn.blt (v.x i) (v.b i)⟩, ?_, ?_, rfl⟩
      · cases hx : k.x.isConst
        · cases ha : k.a.isConst <;> cases hb : k.b.isConst <;> simp [StatNode.once, uniformVec, hab, hx, ha, hb, UniformCache.updateX]
        · have hm : ((sa || k.a.hasMemory) && (sb || k.b.hasMemory)) = true := by
            have := hs.2 (isConst_const hx)
            cases sa <;> cases sb <;> simp_all [ArgKind.hasMemory]
          cases ha : k.a.isConst <;> cases hb : k.b.isConst <;> simp [StatNode.once, uniformVec, hab, hx, ha, hb, UniformCache.updateX, hm]
      · simp only [UniformCache.within, Bool.and_eq_true]
        constructor
        · cases sa
          · simpa [pidx] using allN_of h1
          · obtain ⟨i, hi, he⟩ := minCoeff_mem v.x m
            simpa [pidx, he] using h1 i (by omega)
        · cases sb
          · simpa [pidx] using allN_of h2
          · obtain ⟨i, hi, he⟩ := maxCoeff_mem v.x m
            simpa [pidx, he] using h2 i (by omega)
    · obtain ⟨rfl, rfl⟩ : sa = false ∧ sb = false := by cases sa <;> cases sb <;> simp_all
      refine ⟨⟨uniformLogDiff false false n v, 0, 0, allN n fun i => Fn.blt (v.a i) (v.x i), allN n fun i => Fn.blt (v.x i) (v.b i)⟩, ?_, ?_, rfl⟩
      · cases ha : k.a.isConst <;> cases hb : k.b.isConst <;> simp [StatNode.once, uniformVec, ha, hb]
      · simp only [UniformCache.within, Bool.and_eq_true]
        exact ⟨by simpa [pidx] using allN_of h1, by simpa [pidx] using allN_of h2⟩
  obtain ⟨c, hc1, hc2, hc3⟩ := key
  refine ⟨c, ?_, fun s => ?_⟩
  · rw [hc1, if_pos hc2, hc3]; rfl
  · simp only [uniformVec]
    rw [guard_seed _ _ (by simp [hc2])]
    cases sa <;> cases sb <;> simp [sdUnifV, slotFn]

end FastAD
