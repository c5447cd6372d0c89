import Verif.Proof.Map
import Verif.Proof.GenVal
import Verif.Spec.Faithful
import Mathlib.Order.Filter.Basic
import Mathlib.Order.Filter.Finite

/-!
# Runs over related arithmetics

A run over the scalar type `α` is compared with a family of runs over scalar types `β i`.  `R x c` relates a number to a family of numbers.  If the single operations
preserve `R` inside their domains, then so do values (`exact`, `post`) and adjoints (`gback`) of whole expressions.
-/

namespace FastAD

set_option linter.unusedSectionVars false

variable {α : Type} [Zero α] [One α] [Add α] [Sub α] [Neg α] [Mul α] [Div α] [NatCast α] [IntCast α]
variable [Fn α] [HasInf α] [LinAlg α]
variable {ι : Type} {β : ι → Type} [∀ i, Zero (β i)] [∀ i, One (β i)] [∀ i, Add (β i)] [∀ i, Sub (β i)] [∀ i, Neg (β i)]
variable [∀ i, Mul (β i)] [∀ i, Div (β i)] [∀ i, NatCast (β i)] [∀ i, IntCast (β i)]
variable [∀ i, Fn (β i)] [∀ i, HasInf (β i)] [∀ i, LinAlg (β i)]

/-- What a log-density node does at the operand values `v`: it evaluates to `y`; for a seed other than zero it calls `beval` of the operands `L` with the seeds `sd`. -/
def NodeOut {α : Type} [Zero α] [Fn α] (N : StatNode α) (v : Args α) (y : α) (L : List Slot) (sd : α → Slot → ℕ → α) : Prop :=
  ∃ c, N.once v = some (c, y) ∧ ∀ s, N.beval c v s = if Fn.beq s 0 = true then [] else L.map fun t => (t, sd s t)

/-- `R` is preserved by the log-densities.  For a zero seed nothing is handed on; since approximations of zero need not be zero, it is required that handing on zeros makes no difference. -/
structure StatRelated (φ : Filter ι) (D : Doms α) (R : α → (∀ i, β i) → Prop) : Prop where
  node : ∀ {o : StatOp} {k : Kinds} {n v} {V : ∀ i, Args (β i)}, D.stat o n v → o.Sound k n → (∀ s q, R (v.get s q) fun i => (V i).get s q) →
    ∃ (y : α) (Y : ∀ i, β i) (L : List Slot) (sd : α → Slot → ℕ → α) (sd' : ∀ i, β i → Slot → ℕ → β i), NodeOut (o.node k n) v y L sd ∧ (∀ᶠ i in φ, NodeOut (o.node k n) (V i) (Y i) L (sd' i)) ∧ R y Y ∧
      ∀ s σ, R s σ → ∀ t, ∀ q < (o.shape n t).size, R (sd s t q) (fun i => sd' i (σ i) t q) ∧ (Fn.beq s 0 = true → sd s t q = 0)
  mix : ∀ {x c d} (p : ι → Bool), R x c → R x d → R x fun i => if p i = true then c i else d i
  ne : ∀ {x c}, Fn.beq x 0 = false → R x c → ∀ᶠ i in φ, Fn.beq (c i) 0 = false
  null : ∀ {e : Expr α} {m seed a x}, e.WF → e.Inside D m → (∀ q < e.size, seed q = 0) → e.gback m seed a x = x

/-- `R` is preserved by the single operations inside their domains. -/
structure Related (φ : Filter ι) (D : Doms α) (R : α → (∀ i, β i) → Prop) : Prop where
  congr : ∀ {x c c'}, R x c → (∀ᶠ i in φ, c i = c' i) → R x c'
  zero : R 0 fun _ => 0
  one : R 1 fun _ => 1
  add : ∀ {x y c d}, R x c → R y d → R (x + y) fun i => c i + d i
  sub : ∀ {x y c d}, R x c → R y d → R (x - y) fun i => c i - d i
  mul : ∀ {x y c d}, R x c → R y d → R (x * y) fun i => c i * d i
  neg : ∀ {x c}, R x c → R (-x) fun i => -c i
  div : ∀ {x y c d}, D.den y → R x c → R y d → R (x / y) fun i => c i / d i
  un : ∀ {op x c}, D.un op x → R x c → R (op.fmap x) fun i => op.fmap (c i)
  unb : ∀ {op x c s σ}, D.un op x → R x c → R s σ → R (op.bmap s x (op.fmap x)) fun i => op.bmap (σ i) (c i) (op.fmap (c i))
  cmp : ∀ {x y c d}, D.cmp x y → R x c → R y d → ∀ᶠ i in φ, Fn.blt (c i) (d i) = Fn.blt x y ∧ Fn.blt (d i) (c i) = Fn.blt y x ∧
    Fn.ble (c i) (d i) = Fn.ble x y ∧ Fn.ble (d i) (c i) = Fn.ble y x ∧ Fn.beq (c i) (d i) = Fn.beq x y
  bools : (∀ x y, ¬ D.cmp x y) ∨ (Bools α ∧ ∀ i, Bools (β i))
  fac : ∀ {x c}, D.fac x → R x c → D.den x ∧ Fn.beq x 0 = false ∧ ∀ᶠ i in φ, Fn.beq (c i) 0 = false
  powf : ∀ {n x c}, D.pow n x → R x c → R (powFunc n x) fun i => powFunc n (c i)
  powa : ∀ {n x c}, D.pow n x → R x c → R (arrayPow n x) fun i => arrayPow n (c i)
  pows : ∀ {n x c y d s σ}, n ≠ 0 → n ≠ 1 → D.pow n x → R x c → R y d → R s σ → R (powSeed n s y x) fun i => powSeed n (σ i) (d i) (c i)
  stat : (∀ o n v, ¬ D.stat o n v) ∨ StatRelated φ D R

section
variable {φ : Filter ι} {D : Doms α} {R : α → (∀ i, β i) → Prop} (hR : Related φ D R)
include hR

theorem Related.sumN {n : ℕ} {x : ℕ → α} {c : ∀ i, ℕ → β i} (h : ∀ k < n, R (x k) fun i => c i k) :
    R (FastAD.sumN n x) fun i => FastAD.sumN n (c i) := by
  induction n with
  | zero => exact hR.zero
  | succ n ih => exact hR.add (ih fun k hk => h k (by omega)) (h n (by omega))

theorem Related.prodN {n : ℕ} {x : ℕ → α} {c : ∀ i, ℕ → β i} (h : ∀ k < n, R (x k) fun i => c i k) :
    R (FastAD.prodN n x) fun i => FastAD.prodN n (c i) := by
  induction n with
  | zero => exact hR.one
  | succ n ih => exact hR.mul (ih fun k hk => h k (by omega)) (h n (by omega))

theorem Related.collapse {a w : Shape} {n N : ℕ} {x : ℕ → α} {c : ∀ i, ℕ → β i} (h : ∀ k < n, R (x k) fun i => c i k)
    (hN : a.isScl = true ∧ w.isScl = false ∨ N ≤ n) :
    ∀ k < N, R (FastAD.collapse a w n x k) fun i => FastAD.collapse a w n (c i) k := by
  intro k hk
  simp only [FastAD.collapse]
  by_cases hs : (a.isScl && !w.isScl) = true
  · simp only [hs, if_true]
    exact hR.sumN h
  · simp only [hs]
    rcases hN with hN | hN
    · exact absurd (by simp [hN.1, hN.2]) hs
    · exact h k (by omega)

end

/-- what is known about the value of a condition -/
def CondVal (φ : Filter ι) (x : α) (c : ∀ i, β i) : Prop := ∃ b : Bool, x = ofBool b ∧ ∀ᶠ i in φ, c i = ofBool b

variable {γ : Type} (f : γ → α) (g : ∀ i, γ → β i)

/-- values are related -/
def VClaim (φ : Filter ι) (D : Doms α) (R : α → (∀ i, β i) → Prop) (m : ℕ → α) (m' : ∀ i, ℕ → β i) (e : Expr γ) : Prop :=
  e.WF → (e.map f).Inside D m → (∀ a ∈ e.reads, R (m a) fun i => m' i a) → ∀ k < e.size,
    R ((e.map f).exact m k) (fun i => (e.map (g i)).exact (m' i) k) ∧
    (e.isCond = true → CondVal φ ((e.map f).exact m k) fun i => (e.map (g i)).exact (m' i) k)

section
variable {φ : Filter ι} {D : Doms α} {R : α → (∀ i, β i) → Prop}

theorem Bools.toBool_ofBool {α : Type} [Zero α] [One α] [Fn α] (h : Bools α) (b : Bool) : toBool (ofBool b : α) = b := by
  cases b <;> simp [toBool, ofBool, h.beq00, h.beq10]

theorem CondVal.toBool {x : α} {c : ∀ i, β i} (h : CondVal φ x c) (hb : Bools α ∧ ∀ i, Bools (β i)) :
    ∀ᶠ i in φ, FastAD.toBool (c i) = FastAD.toBool x := by
  obtain ⟨b, rfl, hc⟩ := h
  filter_upwards [hc] with i hi
  rw [hi, hb.1.toBool_ofBool, (hb.2 i).toBool_ofBool]

theorem Related.ofBool (hR : Related φ D R) (b : Bool) : R (FastAD.ofBool b) fun _ => FastAD.ofBool b := by
  cases b
  · exact hR.zero
  · exact hR.one

theorem CondVal.rel {x : α} {c : ∀ i, β i} (h : CondVal φ x c) (hR : Related φ D R) : R x c := by
  obtain ⟨b, rfl, hc⟩ := h
  exact hR.congr (hR.ofBool b) (hc.mono fun i hi => hi.symm)

theorem Related.test (hR : Related φ D R) {op : BOp} {x y : α} {c d : ∀ i, β i} (s : Bool) (hop : op.isComparison = true) (h1 : op ≠ .and) (h2 : op ≠ .or)
    (h : D.cmp x y) (hc : R x c) (hd : R y d) : CondVal φ (op.fmap s x y) fun i => op.fmap s (c i) (d i) := by
  have := hR.cmp h hc hd
  cases op <;> simp only [BOp.isComparison, Bool.false_eq_true] at hop
  case and => exact absurd rfl h1
  case or => exact absurd rfl h2
  all_goals exact ⟨_, rfl, this.mono fun i hi => by simp only [BOp.fmap, hi.1, hi.2.1, hi.2.2.1, hi.2.2.2.1, hi.2.2.2.2]⟩

theorem Bools.minmax {α : Type} [Zero α] [One α] [Add α] [Sub α] [Neg α] [Mul α] [Div α] [NatCast α] [IntCast α] [Fn α] [HasInf α] [LinAlg α] (h : Bools α) (s a b : Bool) :
    BOp.fmap .and s (ofBool a : α) (ofBool b) = ofBool (a && b) ∧ BOp.fmap .or s (ofBool a : α) (ofBool b) = ofBool (a || b) := by
  cases s <;> cases a <;> cases b <;> simp [BOp.fmap, ofBool, toBool, h.beq00, h.beq10, h.blt00, h.blt01, h.blt10, h.blt11]

theorem CondVal.logic {op : BOp} {x y : α} {c d : ∀ i, β i} (s : Bool) (hb : Bools α ∧ ∀ i, Bools (β i)) (hop : op = .and ∨ op = .or)
    (hc : CondVal φ x c) (hd : CondVal φ y d) : CondVal φ (op.fmap s x y) fun i => op.fmap s (c i) (d i) := by
  obtain ⟨a, rfl, hc⟩ := hc
  obtain ⟨b, rfl, hd⟩ := hd
  rcases hop with rfl | rfl
  · refine ⟨a && b, (hb.1.minmax s a b).1, ?_⟩
    filter_upwards [hc, hd] with i h1 h2
    rw [h1, h2, ((hb.2 i).minmax s a b).1]
  · refine ⟨a || b, (hb.1.minmax s a b).2, ?_⟩
    filter_upwards [hc, hd] with i h1 h2
    rw [h1, h2, ((hb.2 i).minmax s a b).2]

theorem Insides.mem {es : Exprs α} {m : ℕ → α} (h : es.Insides D m) : ∀ e ∈ es.toList, e.Inside D m := by
  induction es using Exprs.rec (motive_1 := fun _ => True) with
  | nil => simp [Exprs.toList]
  | cons e es _ ih =>
    intro x hx
    simp only [Exprs.toList, List.mem_cons] at hx
    rcases hx with rfl | hx
    · exact h.1
    · exact ih h.2 x hx
  | _ => trivial

theorem readss_mem {es : Exprs γ} : ∀ e ∈ es.toList, e.reads ⊆ es.readss := by
  induction es using Exprs.rec (motive_1 := fun _ => True) with
  | nil => simp [Exprs.toList]
  | cons e es _ ih =>
    intro x hx
    simp only [Exprs.toList, List.mem_cons] at hx
    rcases hx with rfl | hx
    · exact Set.subset_union_left
    · exact (ih x hx).trans Set.subset_union_right
  | _ => trivial

/-- a condition makes sense only if comparisons do -/
theorem isCond_bools (hR : Related φ D R) {e : Expr γ} {m : ℕ → α} (hc : e.isCond = true) (hwf : e.WF) (hi : (e.map f).Inside D m) (h0 : 0 < e.size) :
    Bools α ∧ ∀ i, Bools (β i) := by
  rcases hR.bools with hn | h
  · exfalso
    induction e using Expr.induct with
    | binary op l r w ihl ihr =>
      obtain ⟨wfl, wfr, hok, hd, -⟩ := hwf
      have hsz : ∀ x : Expr γ, x.WF → (x.shape.isScl = true ∨ sameDims x.shape w.shape) → 0 < x.size := by
        intro x hx h
        rcases h with h | h
        · rw [show x.size = 1 from hx.shapeOk.size_scl h]; exact Nat.one_pos
        · have : x.shape.size = w.shape.size := by simp only [Shape.size, h.1, h.2]
          rw [Expr.size, this]; exact h0
      cases op <;> simp only [Expr.isCond, BOp.isComparison, Bool.false_eq_true] at hc
      case and => exact ihl (by simpa using hi.2.2.1) wfl hi.1 (hsz l wfl hd.1)
      case or => exact ihl (by simpa using hi.2.2.1) wfl hi.1 (hsz l wfl hd.1)
      all_goals exact hn _ _ (hi.2.2 0 h0)
    | _ => simp [Expr.isCond] at hc
  · exact h

/-- index into an operand of a coefficient-wise operation -/
theorem bcastIdx_lt {α : Type} {e : Expr α} {w : Shape} {k : ℕ} (hok : e.shape.Ok) (hd : e.shape.isScl = true ∨ sameDims e.shape w) (hk : k < w.size) :
    (if e.shape.isScl = true then 0 else k) < e.size := by
  split
  · rename_i h; rw [show e.size = 1 from hok.size_scl h]; exact Nat.one_pos
  · rename_i h
    rcases hd with h' | h'
    · exact absurd h' h
    · rw [Expr.size, show e.shape.size = w.size by simp only [Shape.size, h'.1, h'.2]]; exact hk

theorem related_foldl (hR : Related φ D R) {m : ℕ → α} {m' : ∀ i, ℕ → β i} {k : ℕ} (fa : α → α → α) (fb : ∀ i, β i → β i → β i)
    (hf : ∀ {x y c d}, R x c → R y d → R (fa x y) fun i => fb i (c i) (d i)) (es : Exprs γ)
    (h : ∀ e ∈ es.toList, R ((e.map f).exact m k) fun i => (e.map (g i)).exact (m' i) k) :
    ∀ {x c}, R x c → R (((es.maps f).exacts m).foldl (fun c x => fa c (x.2 k)) x)
      fun i => ((es.maps (g i)).exacts (m' i)).foldl (fun c x => fb i c (x.2 k)) (c i) := by
  induction es using Exprs.rec (motive_1 := fun _ => True) with
  | nil => exact fun hx => hx
  | cons e es _ ih =>
    intro x c hx
    simp only [Exprs.maps, Exprs.exacts, List.foldl_cons]
    exact ih (fun e he => h e (by simp [Exprs.toList, he])) (hf hx (h e (by simp [Exprs.toList])))
  | _ => trivial

theorem fmap_statArgs {α : Type} [Zero α] [One α] [Add α] [Sub α] [Neg α] [Mul α] [Div α] [NatCast α] [IntCast α] [Fn α] [HasInf α] [LinAlg α] {o : StatOp} {k : Kinds}
    {l : List (Shape × (ℕ → α))} {n : ℕ} {v : Args α} (h : statArgs l = some (n, v)) : RedOp.fmap (.stat o k) l = ((o.node k n).once v).map Prod.snd := by
  have hf : RedOp.fmap (.stat o k) l = o.fmap k l := by
    match l, h with
    | [(s0, x), (s1, y)], _ => rfl
    | [(s0, x), (s1, y), (s2, z)], _ => rfl
  rw [hf, StatOp.fmap, h]
  simp only [Option.bind_eq_bind, Option.bind_some]
  cases (o.node k n).once v <;> rfl

theorem bmap_statArgs {α : Type} [Zero α] [One α] [Add α] [Sub α] [Neg α] [Mul α] [Div α] [NatCast α] [IntCast α] [Fn α] [HasInf α] [LinAlg α] {o : StatOp} {k : Kinds}
    {l : List (Shape × (ℕ → α))} {n : ℕ} {v : Args α} (h : statArgs l = some (n, v)) {y : α} {L : List Slot} {sd : α → Slot → ℕ → α} (hN : NodeOut (o.node k n) v y L sd) (s z : α) (i : ℕ) :
    RedOp.bmap (.stat o k) s l z i = if Fn.beq s 0 = true then none else if slotOf i ∈ L then some (sd s (slotOf i)) else none := by
  have hf : RedOp.bmap (.stat o k) s l z i = o.bmap k s l i := by
    match l, h with
    | [(s0, x), (s1, y)], _ => rfl
    | [(s0, x), (s1, y), (s2, z)], _ => rfl
  obtain ⟨c, h1, h2⟩ := hN
  rw [hf, StatOp.bmap, h]
  simp only [Option.bind_eq_bind, Option.bind_some, h1, h2]
  clear h1 h2
  by_cases hs : Fn.beq s 0 = true
  · simp [hs]
  · simp only [hs, Bool.false_eq_true, if_false]
    induction L with
    | nil => rfl
    | cons t L ih =>
      by_cases ht : slotOf i = t
      · simp [ht]
      · have : ((t, sd s t) :: L.map fun t => (t, sd s t)).lookup (slotOf i) = (L.map fun t => (t, sd s t)).lookup (slotOf i) := by
          rw [List.lookup_cons, show (slotOf i == t) = false by simpa using ht]
        simp only [List.map_cons, this, List.mem_cons, ht, false_or]
        exact ih

theorem Related.truncs (hR : Related φ D R) {n : ℕ} {x : ℕ → α} {c : ∀ i, ℕ → β i} (h : ∀ k < n, R (x k) fun i => c i k) (k : ℕ) :
    R (trunc n x k) fun i => trunc n (c i) k := by
  by_cases hk : k < n
  · simp only [trunc_of_lt hk]; exact h k hk
  · simp only [trunc, hk, if_false]; exact hR.zero

/-- operand values of a log-density are related -/
theorem related_args (hR : Related φ D R) {o : StatOp} {k : Kinds} {es : Exprs γ} (hfit : o.Fits k es) {m : ℕ → α} {m' : ∀ i, ℕ → β i}
    (hrel : ∀ e ∈ es.toList, ∀ q < e.size, R ((e.map f).exact m q) fun i => (e.map (g i)).exact (m' i) q) :
    ∃ n v, ∃ V : ∀ i, Args (β i), o.Sound k n ∧ statArgs (truncs ((es.maps f).exacts m)) = some (n, v) ∧ (∀ i, statArgs (truncs ((es.maps (g i)).exacts (m' i))) = some (n, V i)) ∧
      (∀ s q, R (v.get s q) fun i => (V i).get s q) ∧ ∀ t (ht : t < es.toList.length), es.toList[t].size = (o.shape n (slotOf t)).size := by
  obtain ⟨n, hn, hsh, -, -, -, hs⟩ := hfit
  have h2 : o.slots = [.x, .a] ∨ o.slots = [.x, .a, .b] := by cases o <;> simp [StatOp.slots]
  rcases h2 with h2 | h2
  · rw [h2] at hsh
    have hl := congrArg List.length hsh
    match es, hl, hsh, hrel with
    | .nil, hl, _, _ | .cons _ .nil, hl, _, _ | .cons _ (.cons _ (.cons _ _)), hl, _, _ => simp [Exprs.toList] at hl
    | .cons ex (.cons ea .nil), _, hsh, hrel =>
      simp only [Exprs.toList, List.map_cons, List.map_nil, List.cons.injEq, and_true] at hsh
      have hx := hR.truncs (hrel ex (by simp [Exprs.toList]))
      have ha := hR.truncs (hrel ea (by simp [Exprs.toList]))
      refine ⟨n, ⟨trunc ex.size ((ex.map f).exact m), trunc ea.size ((ea.map f).exact m), fun _ => 0⟩,
        fun i => ⟨trunc ex.size ((ex.map (g i)).exact (m' i)), trunc ea.size ((ea.map (g i)).exact (m' i)), fun _ => 0⟩, hs, ?_, fun i => ?_, fun s q => ?_, fun t ht => ?_⟩
      · simp only [truncs, Exprs.maps, Exprs.exacts, List.map_cons, List.map_nil, statArgs, map_shape, Expr.size]; rw [hsh.1, hn]
      · simp only [truncs, Exprs.maps, Exprs.exacts, List.map_cons, List.map_nil, statArgs, map_shape, Expr.size]; rw [hsh.1, hn]
      · cases s
        · exact hx q
        · exact ha q
        · exact hR.zero
      · match t, ht with
        | 0, _ => simp only [Exprs.toList, List.getElem_cons_zero, Expr.size, hsh.1, slotOf]
        | 1, _ => simp only [Exprs.toList, List.getElem_cons_zero, List.getElem_cons_succ, Expr.size, hsh.2, slotOf]
        | t + 2, ht => simp [Exprs.toList] at ht
  · rw [h2] at hsh
    have hl := congrArg List.length hsh
    match es, hl, hsh, hrel with
    | .nil, hl, _, _ | .cons _ .nil, hl, _, _ | .cons _ (.cons _ .nil), hl, _, _ | .cons _ (.cons _ (.cons _ (.cons _ _))), hl, _, _ => simp [Exprs.toList] at hl
    | .cons ex (.cons ea (.cons eb .nil)), _, hsh, hrel =>
      simp only [Exprs.toList, List.map_cons, List.map_nil, List.cons.injEq, and_true] at hsh
      have hx := hR.truncs (hrel ex (by simp [Exprs.toList]))
      have ha := hR.truncs (hrel ea (by simp [Exprs.toList]))
      have hb := hR.truncs (hrel eb (by simp [Exprs.toList]))
      refine ⟨n, ⟨trunc ex.size ((ex.map f).exact m), trunc ea.size ((ea.map f).exact m), trunc eb.size ((eb.map f).exact m)⟩,
        fun i => ⟨trunc ex.size ((ex.map (g i)).exact (m' i)), trunc ea.size ((ea.map (g i)).exact (m' i)), trunc eb.size ((eb.map (g i)).exact (m' i))⟩, hs, ?_, fun i => ?_, fun s q => ?_, fun t ht => ?_⟩
      · simp only [truncs, Exprs.maps, Exprs.exacts, List.map_cons, List.map_nil, statArgs, map_shape, Expr.size]; rw [hsh.1, hn]
      · simp only [truncs, Exprs.maps, Exprs.exacts, List.map_cons, List.map_nil, statArgs, map_shape, Expr.size]; rw [hsh.1, hn]
      · cases s
        · exact hx q
        · exact ha q
        · exact hb q
      · match t, ht with
        | 0, _ => simp only [Exprs.toList, List.getElem_cons_zero, Expr.size, hsh.1, slotOf]
        | 1, _ => simp only [Exprs.toList, List.getElem_cons_zero, List.getElem_cons_succ, Expr.size, hsh.2.1, slotOf]
        | 2, _ => simp only [Exprs.toList, List.getElem_cons_zero, List.getElem_cons_succ, Expr.size, hsh.2.2, slotOf]
        | t + 3, ht => simp [Exprs.toList] at ht

theorem related_exact (hR : Related φ D R) (hc : ∀ c, R (f c) fun i => g i c) {m : ℕ → α} {m' : ∀ i, ℕ → β i} (e : Expr γ) :
    VClaim f g φ D R m m' e := by
  induction e using Expr.induct with
  | var v =>
    intro _ _ hm k hk
    exact ⟨hm _ (add_mem_rng hk), fun h => by simp [Expr.isCond] at h⟩
  | const sh c => exact fun _ _ _ k _ => ⟨hc _, fun h => by simp [Expr.isCond] at h⟩
  | cview sh p =>
    intro _ _ hm k hk
    exact ⟨hm _ (add_mem_rng hk), fun h => by simp [Expr.isCond] at h⟩
  | unary op e w ih =>
    intro hwf hi hm k hk
    have hk : k < e.size := by rw [Expr.size, ← hwf.2.1]; exact hk
    exact ⟨hR.un (hi.2 k (by rwa [map_size])) (ih hwf.1 hi.1 hm k hk).1, fun h => by simp [Expr.isCond] at h⟩
  | binary op l r w ihl ihr =>
    intro hwf hi hm k hk
    obtain ⟨wfl, wfr, hok, hd, -⟩ := hwf
    have hkl := bcastIdx_lt wfl.shapeOk hd.1 hk
    have hkr := bcastIdx_lt wfr.shapeOk hd.2.1 hk
    have hl := ihl wfl hi.1 (fun a ha => hm a (Or.inl ha)) _ hkl
    have hr := ihr wfr hi.2.1 (fun a ha => hm a (Or.inr ha)) _ hkr
    have key : op.isComparison = true → CondVal φ ((Expr.binary op (l.map f) (r.map f) w).exact m k)
        fun i => (Expr.binary op (l.map (g i)) (r.map (g i)) w).exact (m' i) k := by
      intro hop
      simp only [Expr.exact, map_shape]
      by_cases ho : op = .and ∨ op = .or
      · have hcd : l.isCond = true ∧ r.isCond = true := by
          have := hi.2.2
          rcases ho with rfl | rfl <;> simpa using this
        exact CondVal.logic _ (isCond_bools f hR hcd.1 wfl hi.1 (by omega)) ho (hl.2 hcd.1) (hr.2 hcd.2)
      · push Not at ho
        refine hR.test _ hop ho.1 ho.2 ?_ hl.1 hr.1
        have := hi.2.2
        cases op <;> simp only [BOp.isComparison, Bool.false_eq_true] at hop
        case and => exact absurd rfl ho.1
        case or => exact absurd rfl ho.2
        all_goals simpa using this k hk
    refine ⟨?_, key⟩
    by_cases hop : op.isComparison = true
    · exact (key hop).rel hR
    · cases op <;> simp only [BOp.isComparison, not_true_eq_false] at hop
      · simpa [Expr.map, Expr.exact, BOp.fmap] using hR.add hl.1 hr.1
      · simpa [Expr.map, Expr.exact, BOp.fmap] using hR.sub hl.1 hr.1
      · simpa [Expr.map, Expr.exact, BOp.fmap] using hR.mul hl.1 hr.1
      · simpa [Expr.map, Expr.exact, BOp.fmap] using hR.div (hi.2.2 _ (by rwa [map_size])) hl.1 hr.1
  | pow n e w ih =>
    intro hwf hi hm k hk
    have hk : k < e.size := by rw [Expr.size, ← hwf.2.1]; exact hk
    have h1 := (ih hwf.1 hi.1 hm k hk).1
    refine ⟨?_, fun h => by simp [Expr.isCond] at h⟩
    simp only [Expr.map, Expr.exact]
    by_cases hs : w.shape.isScl = true
    · simp only [hs, if_true]; exact hR.powf (hi.2 k (by rwa [map_size])) h1
    · simp only [hs]; exact hR.powa (hi.2 k (by rwa [map_size])) h1
  | prodElem e w c ih =>
    intro hwf hi hm k hk
    refine ⟨?_, fun h => by simp [Expr.isCond] at h⟩
    simp only [Expr.map, Expr.exact, map_size]
    exact hR.prodN fun k hk => (ih hwf.1 hi.1 hm k hk).1
  | transpose e w ih =>
    intro hwf hi hm k hk
    refine ⟨(ih hwf.1 hi hm _ ?_).1, fun h => by simp [Expr.isCond] at h⟩
    obtain ⟨-, -, hsh⟩ := hwf
    have hk : k < w.shape.rows * w.shape.cols := hk
    rw [hsh] at hk ⊢
    have := idx_lt hk
    exact idx_lt' this.2 this.1
  | dot l r w ihl ihr =>
    intro hwf hi hm k hk
    obtain ⟨wfl, wfr, hkl, hkr, hcr, hsh, -⟩ := hwf
    have hwr : w.shape.rows = l.shape.rows ∧ w.shape.cols = r.shape.cols := by
      have hcols : r.shape.kind = .vec → r.shape.cols = 1 := by
        intro hk; have := wfr.shapeOk; rw [Shape.Ok, hk] at this; exact this
      rw [hsh]
      cases hk : r.shape.kind
      · exact absurd hk hkr
      · simp [Shape.ofDims, hcols hk]
      · simp [Shape.ofDims]
    have hk : k < w.shape.rows * w.shape.cols := hk
    rw [hwr.1, hwr.2] at hk
    have hkk := idx_lt hk
    refine ⟨?_, fun h => by simp [Expr.isCond] at h⟩
    simp only [Expr.map, Expr.exact, map_shape]
    refine hR.sumN fun q hq => hR.mul (ihl wfl hi.1 (fun a ha => hm a (Or.inl ha)) _ (idx_lt' hkk.1 hq)).1
      (ihr wfr hi.2 (fun a ha => hm a (Or.inr ha)) _ ?_).1
    rw [hcr] at hq ⊢
    exact idx_lt' hq hkk.2
  | sumIter es w ih =>
    intro hwf hi hm k hk
    refine ⟨related_foldl f g hR _ _ hR.add es (fun e he => ?_) hR.zero, fun h => by simp [Expr.isCond] at h⟩
    refine (ih e he (hwf.1.mem e he) (Insides.mem hi _ ?_) (fun a ha => hm a (readss_mem e he ha)) k ?_).1
    · rw [maps_toList]; exact List.mem_map_of_mem he
    · rw [Expr.size, hwf.2.2 e he]; exact hk
  | prodIter es w ih =>
    intro hwf hi hm k hk
    refine ⟨related_foldl f g hR _ _ hR.mul es (fun e he => ?_) hR.one, fun h => by simp [Expr.isCond] at h⟩
    refine (ih e he (hwf.1.mem e he) (Insides.mem hi.1 _ ?_) (fun a ha => hm a (readss_mem e he ha)) k ?_).1
    · rw [maps_toList]; exact List.mem_map_of_mem he
    · rw [Expr.size, (hwf.2.2 e he).1]; exact hk
  | reduce op es w ih =>
    intro hwf hi hm k hk
    refine ⟨?_, fun h => by simp [Expr.isCond] at h⟩
    rcases hwf.2.2 with ⟨e, rfl, -, -⟩ | ⟨o, k, rfl, hfit⟩
    · have h1 := fun k hk => (ih e (by simp [Exprs.toList]) hwf.1.1 hi.1.1 (fun a ha => hm a (Or.inl ha)) k hk).1
      simp only [Expr.map, Exprs.maps, Expr.exact, Exprs.exacts, List.map_cons, List.map_nil, RedOp.fmap, Option.getD_some, map_shape]
      rcases hi.2 with rfl | rfl | ⟨o, k, n, v, rfl, h, -⟩
      · exact hR.sumN fun k hk => by simpa [trunc_of_lt hk] using h1 k hk
      · exact hR.sumN fun k hk => by simpa [trunc_of_lt hk] using hR.mul (h1 k hk) (h1 k hk)
      · simp [Exprs.maps, Exprs.exacts, statArgs] at h
    · rcases hi.2 with h | h | ⟨o', k', n', v', h, hv', hd⟩
      · cases h
      · cases h
      cases h
      rcases hR.stat with hS | hS
      · exact absurd hd (hS _ _ _)
      obtain ⟨n, v, V, hs, hv, hV, hrel, -⟩ := related_args f g hR hfit (m := m) (m' := m') fun e he q hq =>
        (ih e he (hwf.1.mem e he) (Insides.mem hi.1 _ (by rw [maps_toList]; exact List.mem_map_of_mem he)) (fun a ha => hm a (readss_mem e he ha)) q hq).1
      rw [truncs] at hv
      obtain ⟨rfl, rfl⟩ : n = n' ∧ v = v' := by rw [hv] at hv'; simpa using hv'
      obtain ⟨y, Y, L, sd, sd', ⟨c, h1, -⟩, h2, h3, -⟩ := hS.node hd hs hrel
      have e1 : (Expr.reduce (.stat o k) (es.maps f) w).exact m = fun _ => y := by
        funext q
        simp only [Expr.exact]
        rw [fmap_statArgs hv, h1]; rfl
      simp only [Expr.map]
      rw [e1]
      refine hR.congr h3 (h2.mono fun i ⟨c, hi, _⟩ => ?_)
      simp only [Expr.exact]
      have := hV i
      rw [truncs] at this
      rw [fmap_statArgs this, hi]; rfl
  | ifElse c a b w ihc iha ihb =>
    intro hwf hi hm k hk
    obtain ⟨wfc, wfa, wfb, hkc, hic, hsa, hsb, -⟩ := hwf
    obtain ⟨ic, icc, ib⟩ := hi
    rw [map_isCond] at icc
    have h0 : 0 < c.size := by
      rw [show c.size = 1 from wfc.shapeOk.size_scl (by simp [Shape.isScl, hkc])]; exact Nat.one_pos
    have hv := ((ihc wfc ic (fun a ha => hm a (Or.inl ha)) 0 h0).2 icc).toBool (isCond_bools f hR icc wfc ic h0)
    refine ⟨?_, fun h => by simp [Expr.isCond] at h⟩
    simp only [Expr.map, Expr.exact]
    by_cases ht : toBool ((c.map f).exact m 0) = true
    · rw [if_pos ht] at ib
      rw [if_pos ht]
      refine hR.congr (iha wfa ib (fun a ha => hm a (Or.inr (Or.inl ha))) k (by rw [Expr.size, hsa]; exact hk)).1 (hv.mono fun i hi => ?_)
      rw [hi, if_pos ht]
    · rw [if_neg ht] at ib
      rw [if_neg ht]
      refine hR.congr (ihb wfb ib (fun a ha => hm a (Or.inr (Or.inr ha))) k (by rw [Expr.size, hsb]; exact hk)).1 (hv.mono fun i hi => ?_)
      rw [hi, if_neg ht]
  | eq | opEq | glue | forEach => exact fun h => h.elim

/-! ### Products without zero factors -/

omit [One α] [Add α] [Sub α] [Neg α] [Div α] [NatCast α] [IntCast α] [HasInf α] [LinAlg α] [Mul α] in
theorem hasZero_false {n : ℕ} {x : ℕ → α} (h : ∀ k < n, Fn.beq (x k) 0 = false) : hasZero n x = false := by
  simp only [hasZero, List.any_eq_false, List.mem_range]
  exact fun k hk => by simp [h k hk]

theorem prodCache_nozero {n : ℕ} {V P : Vals α} {y : ℕ → α} (h : ∀ i < V.length, hasZero n (V.nth i) = false) :
    ∀ t ≤ V.length, prodCache n V P y t = y
  | 0, _ => rfl
  | t + 1, ht => by
    rw [prodCache]
    simp only [h (V.length - (t + 1)) (by omega), Bool.false_eq_true, if_false]
    exact prodCache_nozero h t (by omega)

theorem prodSeed_nozero {n : ℕ} {V P : Vals α} {y seed : ℕ → α} (h : ∀ i < V.length, hasZero n (V.nth i) = false) {i : ℕ} (hi : i < V.length) (k : ℕ) :
    prodSeed n V P y seed i k = seed k * y k / V.nth i k := by
  simp only [prodSeed, h i hi, Bool.false_eq_true, if_false]
  rw [prodCache_nozero h _ (by omega)]

theorem truncs_exacts_length (es : Exprs α) (m : ℕ → α) : (truncs (es.exacts m)).length = es.toList.length := by
  induction es using Exprs.rec (motive_1 := fun _ => True) with
  | nil => rfl
  | cons e es _ ih => simp only [truncs, List.length_map] at ih; simp [Exprs.exacts, truncs, Exprs.toList, ih]
  | _ => trivial

theorem truncs_exacts_nth (es : Exprs α) (m : ℕ → α) (i : ℕ) (hi : i < es.toList.length) :
    (truncs (es.exacts m)).nth i = trunc es.toList[i].size (es.toList[i].exact m) := by
  induction es using Exprs.rec (motive_1 := fun _ => True) generalizing i with
  | nil => simp [Exprs.toList] at hi
  | cons e es _ ih =>
    cases i with
    | zero => rfl
    | succ i =>
      have := ih i (by simpa [Exprs.toList] using hi)
      simp only [Exprs.toList, List.getElem_cons_succ]
      rw [← this]
      rfl
  | _ => trivial

theorem exprs_length_toList (es : Exprs α) : es.length = es.toList.length := by
  induction es using Exprs.rec (motive_1 := fun _ => True) with
  | nil => rfl
  | cons e es _ ih => simp [Exprs.length, Exprs.toList, ih]
  | _ => trivial

theorem nozero_vals {es : Exprs α} {m : ℕ → α} {n : ℕ} (hsz : ∀ e ∈ es.toList, e.size = n)
    (h : ∀ e ∈ es.toList, ∀ k < n, Fn.beq (e.exact m k) 0 = false) :
    ∀ i < (truncs (es.exacts m)).length, hasZero n ((truncs (es.exacts m)).nth i) = false := by
  intro i hi
  rw [truncs_exacts_length] at hi
  have hmem : es.toList[i] ∈ es.toList := List.getElem_mem hi
  rw [truncs_exacts_nth es m i hi]
  refine hasZero_false fun k hk => ?_
  rw [trunc_of_lt (by rw [hsz _ hmem]; exact hk)]
  exact h _ hmem k hk

/-- the factors of a product over a list have no zeros, eventually -/
theorem related_nozero (hR : Related φ D R) (hc : ∀ c, R (f c) fun i => g i c) {m : ℕ → α} {m' : ∀ i, ℕ → β i} {es : Exprs γ} {w : View}
    (hwf : (Expr.prodIter es w).WF) (hi : ((Expr.prodIter es w).map f).Inside D m) (hm : ∀ a ∈ es.readss, R (m a) fun i => m' i a) :
    (∀ i < (truncs ((es.maps f).exacts m)).length, hasZero w.size ((truncs ((es.maps f).exacts m)).nth i) = false) ∧
    ∀ᶠ i in φ, ∀ j < (truncs ((es.maps (g i)).exacts (m' i))).length, hasZero w.size ((truncs ((es.maps (g i)).exacts (m' i))).nth j) = false := by
  have hsz : ∀ e ∈ es.toList, e.size = w.size := fun e he => by rw [Expr.size, (hwf.2.2 e he).1]; rfl
  have hfac : ∀ e ∈ es.toList, ∀ k < w.size, D.fac ((e.map f).exact m k) := by
    intro e he k hk
    refine hi.2 (e.map f) ?_ k (by rw [map_size, hsz e he]; exact hk)
    rw [maps_toList]; exact List.mem_map_of_mem he
  have hrel : ∀ e ∈ es.toList, ∀ k < w.size, R ((e.map f).exact m k) fun i => (e.map (g i)).exact (m' i) k := by
    intro e he k hk
    refine (related_exact f g hR hc e (hwf.1.mem e he) (Insides.mem hi.1 _ ?_) (fun a ha => hm a (readss_mem e he ha)) k (by rw [hsz e he]; exact hk)).1
    rw [maps_toList]; exact List.mem_map_of_mem he
  constructor
  · refine nozero_vals ?_ ?_
    · simp only [maps_toList, List.forall_mem_map, map_size]; exact hsz
    · simp only [maps_toList, List.forall_mem_map]
      exact fun e he k hk => (hR.fac (hfac e he k hk) (hrel e he k hk)).2.1
  · have : ∀ᶠ i in φ, ∀ e ∈ {e | e ∈ es.toList}, ∀ k ∈ {k | k < w.size}, Fn.beq ((e.map (g i)).exact (m' i) k) 0 = false :=
      (Filter.eventually_all_finite (List.finite_toSet _)).2 fun e he => (Filter.eventually_all_finite (Set.finite_lt_nat _)).2 fun k hk =>
        (hR.fac (hfac e he k hk) (hrel e he k hk)).2.2
    filter_upwards [this] with i hi
    refine nozero_vals ?_ ?_
    · simp only [maps_toList, List.forall_mem_map, map_size]; exact hsz
    · simp only [maps_toList, List.forall_mem_map]
      exact fun e he k hk => hi e he k hk

theorem related_post (hR : Related φ D R) (hc : ∀ c, R (f c) fun i => g i c) {m : ℕ → α} {m' : ∀ i, ℕ → β i} (e : Expr γ) :
    e.WF → (e.map f).Inside D m → (∀ a ∈ e.reads, R (m a) fun i => m' i a) → ∀ k < e.size,
      R ((e.map f).post m k) (fun i => (e.map (g i)).post (m' i) k) := by
  induction e using Expr.induct with
  | prodIter es w ih =>
    intro hwf hi hm k hk
    obtain ⟨h1, h2⟩ := related_nozero f g hR hc hwf hi hm
    have h3 := (related_exact f g hR hc (.prodIter es w) hwf hi hm k hk).1
    simp only [Expr.map, Expr.post] at h3 ⊢
    rw [prodCache_nozero h1 _ (by rw [truncs_exacts_length, exprs_length_toList])]
    refine hR.congr h3 (h2.mono fun i hi => ?_)
    rw [prodCache_nozero hi _ (by rw [truncs_exacts_length, exprs_length_toList])]
  | ifElse c a b w ihc iha ihb =>
    intro hwf hi hm k hk
    obtain ⟨wfc, wfa, wfb, hkc, hic, hsa, hsb, -⟩ := hwf
    obtain ⟨ic, icc, ib⟩ := hi
    rw [map_isCond] at icc
    have h0 : 0 < c.size := by
      rw [show c.size = 1 from wfc.shapeOk.size_scl (by simp [Shape.isScl, hkc])]; exact Nat.one_pos
    have hv := ((related_exact f g hR hc c wfc ic (fun a ha => hm a (Or.inl ha)) 0 h0).2 icc).toBool (isCond_bools f hR icc wfc ic h0)
    simp only [Expr.map, Expr.post]
    by_cases ht : toBool ((c.map f).exact m 0) = true
    · rw [if_pos ht] at ib
      rw [if_pos ht]
      refine hR.congr (iha wfa ib (fun a ha => hm a (Or.inr (Or.inl ha))) k (by rw [Expr.size, hsa]; exact hk)) (hv.mono fun i hi => ?_)
      rw [hi, if_pos ht]
    · rw [if_neg ht] at ib
      rw [if_neg ht]
      refine hR.congr (ihb wfb ib (fun a ha => hm a (Or.inr (Or.inr ha))) k (by rw [Expr.size, hsb]; exact hk)) (hv.mono fun i hi => ?_)
      rw [hi, if_neg ht]
  | eq | opEq | glue | forEach => exact fun h => h.elim
  | _ => exact fun hwf hi hm k hk => (related_exact f g hR hc _ hwf hi hm k hk).1

theorem post_of_inside (hR : Related φ D R) (hc : ∀ c, R (f c) fun i => g i c) {m : ℕ → α} {m' : ∀ i, ℕ → β i} {e : Expr γ}
    (hwf : e.WF) (hi : (e.map f).Inside D m) (hm : ∀ a ∈ e.reads, R (m a) fun i => m' i a) (hn : e.isIf = false) : (e.map f).post m = (e.map f).exact m := by
  cases e with
  | prodIter es w =>
    simp only [Expr.map, Expr.post]
    exact prodCache_nozero (related_nozero f g hR hc hwf hi hm).1 _ (by rw [truncs_exacts_length, exprs_length_toList])
  | ifElse => simp [Expr.isIf] at hn
  | _ => rfl

theorem post_eventually (hR : Related φ D R) (hc : ∀ c, R (f c) fun i => g i c) {m : ℕ → α} {m' : ∀ i, ℕ → β i} {e : Expr γ}
    (hwf : e.WF) (hi : (e.map f).Inside D m) (hm : ∀ a ∈ e.reads, R (m a) fun i => m' i a) (hn : e.isIf = false) :
    ∀ᶠ i in φ, (e.map (g i)).post (m' i) = (e.map (g i)).exact (m' i) := by
  cases e with
  | prodIter es w =>
    refine (related_nozero f g hR hc hwf hi hm).2.mono fun i hi => ?_
    simp only [Expr.map, Expr.post]
    exact prodCache_nozero hi _ (by rw [truncs_exacts_length, exprs_length_toList])
  | ifElse => simp [Expr.isIf] at hn
  | _ => exact .of_forall fun _ => rfl

theorem posts_eq {es : Exprs α} {m : ℕ → α} : (∀ e ∈ es.toList, e.post m = e.exact m) → es.posts m = es.exacts m := by
  induction es using Exprs.rec (motive_1 := fun _ => True) with
  | nil => exact fun _ => rfl
  | cons e es _ ih =>
    intro h
    simp only [Exprs.posts, Exprs.exacts, h e (by simp [Exprs.toList]), ih fun x hx => h x (by simp [Exprs.toList, hx])]
  | _ => trivial

theorem loopVals_same (sd : Vals α → ℕ → Option (ℕ → α)) (V : Vals α) : ∀ t ≤ V.length, loopVals sd V V t = V
  | 0, _ => rfl
  | t + 1, ht => by
    simp only [loopVals, loopVals_same sd V t (by omega)]
    split
    · have h : V.length - (t + 1) < V.length := by omega
      rw [List.getElem?_eq_getElem h, Option.getD_some, List.set_getElem_self h]
    · rfl

theorem gbacks_none (es : Exprs α) (m : ℕ → α) (a : ℕ) (x : α) : ∀ j, es.gbacks m (fun _ => none) j a x = x := by
  induction es using Exprs.rec (motive_1 := fun _ => True) with
  | nil => exact fun _ => rfl
  | cons e es _ ih => exact fun j => ih (j + 1)
  | _ => trivial

theorem gbacks_null {es : Exprs α} {m : ℕ → α} (hnull : ∀ {e : Expr α} {m seed a x}, e.WF → e.Inside D m → (∀ q < e.size, seed q = 0) → e.gback m seed a x = x) :
    es.WFs → es.Insides D m → ∀ (p : ℕ → Bool) (sd : ℕ → ℕ → α) (j : ℕ), (∀ t (ht : t < es.toList.length), ∀ q < es.toList[t].size, sd (j + t) q = 0) → ∀ a x,
      es.gbacks m (fun t => if p t = true then some (sd t) else none) j a x = x := by
  induction es using Exprs.rec (motive_1 := fun _ => True) with
  | nil => exact fun _ _ _ _ _ _ _ _ => rfl
  | cons e es _ ih =>
    intro hwf hi p sd j h a x
    have h1 := ih hwf.2 hi.2 p sd (j + 1) (fun t ht q hq => by
      have := h (t + 1) (by simpa [Exprs.toList] using ht) q hq
      rwa [show j + (t + 1) = j + 1 + t by omega] at this) a x
    simp only [Exprs.gbacks, h1]
    cases p j
    · simp only [Bool.false_eq_true, if_false]
    · simp only [if_true]
      exact hnull hwf.1 hi.1 fun q hq => h 0 (by simp [Exprs.toList]) q hq
  | _ => trivial

/-- adjoints are related -/
def GClaim (D : Doms α) (R : α → (∀ i, β i) → Prop) (m : ℕ → α) (m' : ∀ i, ℕ → β i) (e : Expr γ) : Prop :=
  e.WF → (e.map f).Inside D m → (∀ a ∈ e.reads, R (m a) fun i => m' i a) → ∀ (seed : ℕ → α) (seed' : ∀ i, ℕ → β i),
    (∀ k < e.size, R (seed k) fun i => seed' i k) → ∀ (a : ℕ) (x : α) (x' : ∀ i, β i), R x x' →
      R ((e.map f).gback m seed a x) fun i => (e.map (g i)).gback (m' i) (seed' i) a (x' i)

theorem related_gbacks {m : ℕ → α} {m' : ∀ i, ℕ → β i} (es : Exprs γ) :
    (∀ e ∈ es.toList, GClaim f g D R m m' e) → es.WFs → (es.maps f).Insides D m → (∀ a ∈ es.readss, R (m a) fun i => m' i a) →
    ∀ (sd : ℕ → ℕ → α) (sd' : ∀ i, ℕ → ℕ → β i) (j : ℕ),
    (∀ t (ht : t < es.toList.length), ∀ k < es.toList[t].size, R (sd (j + t) k) fun i => sd' i (j + t) k) → ∀ (a : ℕ) (x : α) (x' : ∀ i, β i), R x x' →
      R ((es.maps f).gbacks m (fun t => some (sd t)) j a x) fun i => (es.maps (g i)).gbacks (m' i) (fun t => some (sd' i t)) j a (x' i) := by
  induction es using Exprs.rec (motive_1 := fun _ => True) with
  | nil => exact fun _ _ _ _ _ _ _ _ _ _ _ hx => hx
  | cons e es _ ih =>
    intro hP hwf hi hm sd sd' j hsd a x x' hx
    simp only [Exprs.maps, Exprs.gbacks]
    refine hP e (by simp [Exprs.toList]) hwf.1 hi.1 (fun a ha => hm a (Or.inl ha)) _ _ (fun k hk => hsd 0 (by simp [Exprs.toList]) k hk) a _ _ ?_
    refine ih (fun e he => hP e (by simp [Exprs.toList, he])) hwf.2 hi.2 (fun a ha => hm a (Or.inr ha)) sd sd' (j + 1) (fun t ht k hk => ?_) a x x' hx
    have := hsd (t + 1) (by simpa [Exprs.toList] using ht) k hk
    rwa [show j + (t + 1) = j + 1 + t by omega] at this
  | _ => trivial

theorem related_gbacks_some {m : ℕ → α} {m' : ∀ i, ℕ → β i} (es : Exprs γ) (p : ℕ → Bool) :
    (∀ e ∈ es.toList, GClaim f g D R m m' e) → es.WFs → (es.maps f).Insides D m → (∀ a ∈ es.readss, R (m a) fun i => m' i a) →
    ∀ (sd : ℕ → ℕ → α) (sd' : ∀ i, ℕ → ℕ → β i) (j : ℕ),
    (∀ t (ht : t < es.toList.length), ∀ k < es.toList[t].size, R (sd (j + t) k) fun i => sd' i (j + t) k) → ∀ (a : ℕ) (x : α) (x' : ∀ i, β i), R x x' →
      R ((es.maps f).gbacks m (fun t => if p t = true then some (sd t) else none) j a x)
        fun i => (es.maps (g i)).gbacks (m' i) (fun t => if p t = true then some (sd' i t) else none) j a (x' i) := by
  induction es using Exprs.rec (motive_1 := fun _ => True) with
  | nil => exact fun _ _ _ _ _ _ _ _ _ _ _ hx => hx
  | cons e es _ ih =>
    intro hP hwf hi hm sd sd' j hsd a x x' hx
    have h1 := ih (fun e he => hP e (by simp [Exprs.toList, he])) hwf.2 hi.2 (fun a ha => hm a (Or.inr ha)) sd sd' (j + 1) (fun t ht k hk => by
      have := hsd (t + 1) (by simpa [Exprs.toList] using ht) k hk
      rwa [show j + (t + 1) = j + 1 + t by omega] at this) a x x' hx
    simp only [Exprs.maps, Exprs.gbacks]
    cases p j
    · simp only [Bool.false_eq_true, if_false]
      exact h1
    · simp only [if_true]
      exact hP e (by simp [Exprs.toList]) hwf.1 hi.1 (fun a ha => hm a (Or.inl ha)) _ _ (fun k hk => hsd 0 (by simp [Exprs.toList]) k hk) a _ _ h1
  | _ => trivial

theorem related_gback (hR : Related φ D R) (hc : ∀ c, R (f c) fun i => g i c) {m : ℕ → α} {m' : ∀ i, ℕ → β i} (e : Expr γ) :
    GClaim f g D R m m' e := by
  induction e using Expr.induct with
  | var v =>
    intro _ _ hm seed seed' hs a x x' hx
    simp only [Expr.map, Expr.gback]
    by_cases h : addr v.adj ≤ a ∧ a < addr v.adj + v.size
    · simp only [if_pos h]
      exact hR.add hx (hs _ (by show _ < v.size; omega))
    · simp only [if_neg h]
      exact hx
  | const | cview => exact fun _ _ _ _ _ _ _ _ _ hx => hx
  | unary op e w ih =>
    intro hwf hi hm seed seed' hs a x x' hx
    simp only [Expr.map, Expr.gback]
    have hsz : e.size = w.size := by simp [Expr.size, View.size, hwf.2.1]
    exact ih hwf.1 hi.1 hm _ _ (fun k hk => hR.unb (hi.2 k (by rwa [map_size])) (related_exact f g hR hc e hwf.1 hi.1 hm k hk).1
      (hs k (by rw [hsz] at hk; exact hk))) a x x' hx
  | binary op p q w ihl ihr =>
    intro hwf hi hm seed seed' hs a x x' hx
    have hself := fun k hk => (related_exact f g hR hc (.binary op p q w) hwf hi hm k hk).1
    obtain ⟨wfl, wfr, hok, hd, hif⟩ := hwf
    have hl := fun k (hk : k < w.size) => (related_exact f g hR hc p wfl hi.1 (fun a ha => hm a (Or.inl ha)) _ (bcastIdx_lt wfl.shapeOk hd.1 hk)).1
    have hr := fun k (hk : k < w.size) => (related_exact f g hR hc q wfr hi.2.1 (fun a ha => hm a (Or.inr ha)) _ (bcastIdx_lt wfr.shapeOk hd.2.1 hk)).1
    have hr' := fun k (hk : k < w.size) => (related_post f g hR hc q wfr hi.2.1 (fun a ha => hm a (Or.inr ha)) _ (bcastIdx_lt wfr.shapeOk hd.2.1 hk))
    have hden : op = .div → ∀ k < w.size, D.den ((q.map f).exact m (if q.shape.isScl = true then 0 else k)) := by
      rintro rfl k hk
      exact hi.2.2 _ (by rw [map_size]; exact bcastIdx_lt wfr.shapeOk hd.2.1 hk)
    simp only [Expr.map, Expr.gback, map_shape]
    by_cases hop : op.isComparison = true
    · simp only [hop, if_true]; exact hx
    · simp only [hop]
      refine ihl wfl hi.1 (fun a ha => hm a (Or.inl ha)) _ _ (hR.collapse (fun k hk => ?_) (operand_size wfl.shapeOk hok hd.1)) a _ _ ?_
      · have h1 := hs k hk
        have h2 := hr k hk
        have h3 := hr' k hk
        by_cases hsc : p.shape.isScl = true
        · simp only [hsc, if_true, bcast, Shape.bidx]
          cases op <;> simp only [BOp.isComparison, not_true_eq_false] at hop
          · exact h1
          · exact h1
          · exact hR.mul h1 h2
          · exact hR.div (hden rfl k hk) h1 h2
        · simp only [hsc, bcast, Shape.bidx]
          cases op <;> simp only [BOp.isComparison, not_true_eq_false] at hop
          · exact h1
          · exact h1
          · exact hR.mul h1 h3
          · refine hR.div ?_ h1 h3
            have hnif : q.isIf = false := by
              by_contra h
              have := ((hif rfl).2 (by simpa using h)).1
              simp [BOp.usesR] at this
            rw [post_of_inside f g hR hc wfr hi.2.1 (fun a ha => hm a (Or.inr ha)) hnif]
            exact hden rfl k hk
      · refine ihr wfr hi.2.1 (fun a ha => hm a (Or.inr ha)) _ _ (hR.collapse (fun k hk => ?_) (operand_size wfr.shapeOk hok hd.2.1)) a x x' hx
        have h1 := hs k hk
        have h2 := hl k hk
        have h3 := hr k hk
        have h4 := hself k hk
        simp only [bcast, Shape.bidx]
        cases op <;> simp only [BOp.isComparison, not_true_eq_false] at hop
        · exact h1
        · exact hR.neg h1
        · exact hR.mul h1 h2
        · refine hR.div (hden rfl k hk) (hR.mul (hR.neg h1) ?_) h3
          exact h4
  | pow n e w ih =>
    intro hwf hi hm seed seed' hs a x x' hx
    have hself := fun k hk => (related_exact f g hR hc (.pow n e w) hwf hi hm k hk).1
    have hsz : e.size = w.size := by simp [Expr.size, View.size, hwf.2.1]
    simp only [Expr.map, Expr.gback] at hself ⊢
    by_cases h0 : n = 0
    · simp only [h0, if_true]
      exact ih hwf.1 hi.1 hm _ _ (fun k _ => hR.zero) a x x' hx
    · by_cases h1 : n = 1
      · simp only [h1, if_true, one_ne_zero, if_false]
        exact ih hwf.1 hi.1 hm _ _ (fun k hk => hs k (by rw [hsz] at hk; exact hk)) a x x' hx
      · simp only [h0, h1, if_false]
        exact ih hwf.1 hi.1 hm _ _ (fun k hk => hR.pows h0 h1 (hi.2 k (by rwa [map_size])) (related_exact f g hR hc e hwf.1 hi.1 hm k hk).1
          (hself k (by rw [hsz] at hk; exact hk)) (hs k (by rw [hsz] at hk; exact hk))) a x x' hx
  | prodElem e w c ih =>
    intro hwf hi hm seed seed' hs a x x' hx
    have h0 : 0 < w.size := by show 0 < w.shape.size; rw [hwf.2.1]; simp [Shape.scl, Shape.size]
    have hself := (related_exact f g hR hc (.prodElem e w c) hwf hi hm 0 h0).1
    simp only [Expr.map, Expr.gback] at hself ⊢
    refine ih hwf.1 hi.1 hm _ _ (fun k hk => ?_) a x x' hx
    have h1 := (related_exact f g hR hc e hwf.1 hi.1 hm k hk).1
    have h2 := hR.fac (hi.2 k (by rwa [map_size])) h1
    simp only [prodElemSeed, h2.2.1, Bool.false_eq_true, if_false]
    refine hR.congr (hR.mul (hs 0 h0) (hR.div h2.1 hself h1)) (h2.2.2.mono fun i hi => ?_)
    simp only [hi, Bool.false_eq_true, if_false]
  | transpose e w ih =>
    intro hwf hi hm seed seed' hs a x x' hx
    simp only [Expr.map, Expr.gback, map_shape]
    refine ih hwf.1 hi hm _ _ (fun k hk => ?_) a x x' hx
    simp only [transposed]
    apply hs
    show _ < w.shape.size
    rw [hwf.2.2]
    have hk : k < e.shape.rows * e.shape.cols := hk
    have := idx_lt hk
    exact idx_lt' this.2 this.1
  | dot p q w ihl ihr =>
    intro hwf hi hm seed seed' hs a x x' hx
    obtain ⟨wfl, wfr, hkl, hkr, hcr, hsh, _⟩ := hwf
    have hl := fun k hk => (related_exact f g hR hc p wfl hi.1 (fun a ha => hm a (Or.inl ha)) k hk).1
    have hr := related_post f g hR hc q wfr hi.2 (fun a ha => hm a (Or.inr ha))
    have hcols : q.shape.kind = .vec → q.shape.cols = 1 := by
      intro hk; have := wfr.shapeOk; rw [Shape.Ok, hk] at this; exact this
    have hwr : w.shape.rows = p.shape.rows ∧ w.shape.cols = q.shape.cols := by
      rw [hsh]
      cases hk : q.shape.kind
      · exact absurd hk hkr
      · simp [Shape.ofDims, hcols hk]
      · simp [Shape.ofDims]
    have hs : ∀ i < p.shape.rows, ∀ j < q.shape.cols, R (seed (i + j * p.shape.rows)) fun t => seed' t (i + j * p.shape.rows) := by
      intro i hi j hj
      apply hs
      show _ < w.shape.rows * w.shape.cols
      rw [hwr.1, hwr.2]
      exact idx_lt' hi hj
    simp only [Expr.map, Expr.gback, map_shape]
    refine ihl wfl hi.1 (fun a ha => hm a (Or.inl ha)) _ _ (fun k hk => ?_) a _ _ (ihr wfr hi.2 (fun a ha => hm a (Or.inr ha)) _ _ (fun k hk => ?_) a x x' hx)
    · have hk : k < p.shape.rows * p.shape.cols := hk
      have hk' := idx_lt hk
      simp only [dotLSeed]
      refine hR.sumN fun j hj => ?_
      rw [hwr.2] at hj
      refine hR.mul (hs _ hk'.1 j hj) (hr _ ?_)
      rw [hcr] at hk' ⊢
      exact idx_lt' hk'.2 hj
    · have hk : k < q.shape.rows * q.shape.cols := hk
      rw [← hcr] at hk
      have hk' := idx_lt hk
      simp only [dotRSeed]
      exact hR.sumN fun i hi => hR.mul (hl _ (idx_lt' hi hk'.1)) (hs i hi _ hk'.2)
  | sumIter es w ih =>
    intro hwf hi hm seed seed' hs a x x' hx
    simp only [Expr.map, Expr.gback]
    refine related_gbacks f g es ih hwf.1 hi hm (fun _ => seed) (fun i _ => seed' i) 0 (fun t ht k hk => hs k ?_) a x x' hx
    rw [Expr.size, hwf.2.2 _ (List.getElem_mem ht)] at hk
    exact hk
  | prodIter es w ih =>
    intro hwf hi hm seed seed' hs a x x' hx
    obtain ⟨h1, h2⟩ := related_nozero f g hR hc hwf hi hm
    have hself := fun k hk => (related_exact f g hR hc (.prodIter es w) hwf hi hm k hk).1
    simp only [Expr.map, Expr.gback] at hself ⊢
    refine related_gbacks f g es ih hwf.1 hi.1 hm _ _ 0 (fun t ht k hk => ?_) a x x' hx
    have hmem : es.toList[t] ∈ es.toList := List.getElem_mem ht
    have hmem' : es.toList[t].map f ∈ (es.maps f).toList := by rw [maps_toList]; exact List.mem_map_of_mem hmem
    have hkw : k < w.size := by rw [Expr.size, (hwf.2.2 _ hmem).1] at hk; exact hk
    rw [Nat.zero_add]
    have hlen : ∀ {δ : Type} (h : γ → δ), t < (es.maps h).toList.length := fun h => by rw [maps_toList, List.length_map]; exact ht
    have hget : ∀ {δ : Type} (h : γ → δ), (es.maps h).toList[t]'(hlen h) = es.toList[t].map h := fun h => by simp [maps_toList]
    rw [prodSeed_nozero h1 (by rw [truncs_exacts_length]; exact hlen f), truncs_exacts_nth _ _ _ (hlen f), hget, trunc_of_lt (by rwa [map_size])]
    have h3 := (related_exact f g hR hc _ (hwf.1.mem _ hmem) (Insides.mem hi.1 _ hmem') (fun a ha => hm a (readss_mem _ hmem ha)) k hk).1
    refine hR.congr (hR.div (hR.fac (hi.2 _ hmem' k (by rwa [map_size])) h3).1 (hR.mul (hs k hkw) (hself k hkw)) h3) (h2.mono fun i hi => ?_)
    rw [prodSeed_nozero hi (by rw [truncs_exacts_length]; exact hlen (g i)), truncs_exacts_nth _ _ _ (hlen (g i)), hget, trunc_of_lt (by rwa [map_size])]
  | reduce op es w ih =>
    intro hwf hi hm seed seed' hs a x x' hx
    have h0 := hs 0 (by show 0 < w.shape.size; rw [hwf.2.1]; simp [Shape.scl, Shape.size])
    rcases hwf.2.2 with ⟨e, rfl, -, -⟩ | ⟨o, k, rfl, hfit⟩
    · have h1 := fun k hk => (related_exact f g hR hc e hwf.1.1 hi.1.1 (fun a ha => hm a (Or.inl ha)) k hk).1
      have h2 := ih e (by simp [Exprs.toList]) hwf.1.1 hi.1.1 (fun a ha => hm a (Or.inl ha))
      rcases hi.2 with rfl | rfl | ⟨o, k, n, v, rfl, h, -⟩
      · have := h2 (fun _ => seed 0) (fun i _ => seed' i 0) (fun k _ => h0) a x x' hx
        simpa [Expr.map, Exprs.maps, Expr.gback, Exprs.gbacks, Exprs.exacts, loopSeed, loopVals, truncs, RedOp.bmap, RedOp.bmap1, Expr.size] using this
      · have := h2 (fun k => seed 0 * (1 + 1) * trunc e.size ((e.map f).exact m) k) (fun i k => seed' i 0 * (1 + 1) * trunc e.size ((e.map (g i)).exact (m' i)) k)
          (fun k hk => by simp only [trunc_of_lt hk]; exact hR.mul (hR.mul h0 (hR.add hR.one hR.one)) (h1 k hk)) a x x' hx
        simpa [Expr.map, Exprs.maps, Expr.gback, Exprs.gbacks, Exprs.exacts, loopSeed, loopVals, truncs, RedOp.bmap, RedOp.bmap1, Expr.size] using this
      · simp [Exprs.maps, Exprs.exacts, statArgs] at h
    · rcases hi.2 with h | h | ⟨o', k', n', v', h, hv', hd⟩
      · cases h
      · cases h
      cases h
      rcases hR.stat with hS | hS
      · exact absurd hd (hS _ _ _)
      have hmem : ∀ e ∈ es.toList, (e.map f).Inside D m := fun e he => Insides.mem hi.1 _ (by rw [maps_toList]; exact List.mem_map_of_mem he)
      obtain ⟨n, v, V, hsd, hv, hV, hrel, hsz⟩ := related_args f g hR hfit (m := m) (m' := m') fun e he q hq =>
        (related_exact f g hR hc e (hwf.1.mem e he) (hmem e he) (fun a ha => hm a (readss_mem e he ha)) q hq).1
      obtain ⟨rfl, rfl⟩ : n = n' ∧ v = v' := by rw [truncs] at hv; rw [hv] at hv'; simpa using hv'
      obtain ⟨y, Y, L, sd, sd', h1, h2, -, h4⟩ := hS.node hd hsd hrel
      have hnif : ∀ e ∈ es.toList, e.isIf = false := by obtain ⟨_, _, _, _, h, _⟩ := hfit; exact h
      have hp1 : (es.maps f).posts m = (es.maps f).exacts m := posts_eq (by
        simp only [maps_toList, List.forall_mem_map]
        exact fun e he => post_of_inside f g hR hc (hwf.1.mem e he) (hmem e he) (fun a ha => hm a (readss_mem e he ha)) (hnif e he))
      have hp2 : ∀ᶠ i in φ, (es.maps (g i)).posts (m' i) = (es.maps (g i)).exacts (m' i) := by
        have : ∀ᶠ i in φ, ∀ e ∈ {e | e ∈ es.toList}, (e.map (g i)).post (m' i) = (e.map (g i)).exact (m' i) :=
          (Filter.eventually_all_finite (List.finite_toSet _)).2 fun e he =>
            post_eventually f g hR hc (hwf.1.mem e he) (hmem e he) (fun a ha => hm a (readss_mem e he ha)) (hnif e he)
        refine this.mono fun i hi => posts_eq ?_
        simp only [maps_toList, List.forall_mem_map]
        exact hi
      have e1 : ((Expr.reduce (.stat o k) es w).map f).gback m seed a x =
          if Fn.beq (seed 0) 0 = true then x else (es.maps f).gbacks m (fun t => if decide (slotOf t ∈ L) = true then some (sd (seed 0) (slotOf t)) else none) 0 a x := by
        simp only [Expr.map, Expr.gback, hp1]
        rw [show loopSeed (fun V i => RedOp.bmap (.stat o k) (seed 0) V ((Expr.reduce (.stat o k) (es.maps f) w).exact m 0) i) (truncs ((es.maps f).exacts m)) (truncs ((es.maps f).exacts m)) =
          fun t => if Fn.beq (seed 0) 0 = true then none else if slotOf t ∈ L then some (sd (seed 0) (slotOf t)) else none from ?_]
        · by_cases hb : Fn.beq (seed 0) 0 = true
          · simp only [hb, if_true]; exact gbacks_none _ _ _ _ _
          · simp only [hb, Bool.false_eq_true, if_false, decide_eq_true_eq]
        · funext t
          rw [loopSeed, loopVals_same _ _ _ (by omega), bmap_statArgs hv h1]
      have e2 : ∀ᶠ i in φ, ((Expr.reduce (.stat o k) es w).map (g i)).gback (m' i) (seed' i) a (x' i) =
          if Fn.beq (seed' i 0) 0 = true then x' i
          else (es.maps (g i)).gbacks (m' i) (fun t => if decide (slotOf t ∈ L) = true then some (sd' i (seed' i 0) (slotOf t)) else none) 0 a (x' i) := by
        filter_upwards [h2, hp2] with i h2 hp2
        simp only [Expr.map, Expr.gback, hp2]
        rw [show loopSeed (fun V t => RedOp.bmap (.stat o k) (seed' i 0) V ((Expr.reduce (.stat o k) (es.maps (g i)) w).exact (m' i) 0) t) (truncs ((es.maps (g i)).exacts (m' i)))
          (truncs ((es.maps (g i)).exacts (m' i))) =
          fun t => if Fn.beq (seed' i 0) 0 = true then none else if slotOf t ∈ L then some (sd' i (seed' i 0) (slotOf t)) else none from ?_]
        · by_cases hb : Fn.beq (seed' i 0) 0 = true
          · simp only [hb, if_true]; exact gbacks_none _ _ _ _ _
          · simp only [hb, Bool.false_eq_true, if_false, decide_eq_true_eq]
        · funext t
          rw [loopSeed, loopVals_same _ _ _ (by omega), bmap_statArgs (hV i) h2]
      have hg := related_gbacks_some f g es (fun t => decide (slotOf t ∈ L)) ih hwf.1 hi.1 hm (fun t => sd (seed 0) (slotOf t)) (fun i t => sd' i (seed' i 0) (slotOf t)) 0
        (fun t ht q hq => by rw [Nat.zero_add]; exact (h4 _ _ h0 (slotOf t) q (by rw [← hsz t ht]; exact hq)).1) a x x' hx
      rw [e1]
      refine hR.congr ?_ (e2.mono fun i hi => hi.symm)
      by_cases hb : Fn.beq (seed 0) 0 = true
      · rw [if_pos hb]
        refine hS.mix (fun i => Fn.beq (seed' i 0) 0) hx ?_
        rw [gbacks_null hS.null (map_wf f hwf).1 hi.1 _ _ 0 (fun t ht q hq => ?_)] at hg
        · exact hg
        · have ht' : t < es.toList.length := by simpa [maps_toList] using ht
          rw [Nat.zero_add]
          refine (h4 _ _ h0 (slotOf t) q ?_).2 hb
          rw [← hsz t ht']
          simpa [maps_toList, map_size] using hq
      · rw [if_neg hb]
        have hb' : Fn.beq (seed 0) 0 = false := by simpa using hb
        refine hR.congr hg ((hS.ne hb' h0).mono fun i hi => ?_)
        simp only [hi, Bool.false_eq_true, if_false]
  | ifElse c p q w ihc iha ihb =>
    intro hwf hi hm seed seed' hs a x x' hx
    obtain ⟨wfc, wfa, wfb, hkc, hic, hsa, hsb, -⟩ := hwf
    obtain ⟨ic, icc, ib⟩ := hi
    rw [map_isCond] at icc
    have h0 : 0 < c.size := by
      rw [show c.size = 1 from wfc.shapeOk.size_scl (by simp [Shape.isScl, hkc])]; exact Nat.one_pos
    have hv := ((related_exact f g hR hc c wfc ic (fun a ha => hm a (Or.inl ha)) 0 h0).2 icc).toBool (isCond_bools f hR icc wfc ic h0)
    simp only [Expr.map, Expr.gback]
    by_cases ht : toBool ((c.map f).exact m 0) = true
    · rw [if_pos ht] at ib
      rw [if_pos ht]
      refine hR.congr (iha wfa ib (fun a ha => hm a (Or.inr (Or.inl ha))) _ _ (fun k hk => hs k (by rw [Expr.size, hsa] at hk; exact hk)) a x x' hx) (hv.mono fun i hi => ?_)
      rw [hi, if_pos ht]
    · rw [if_neg ht] at ib
      rw [if_neg ht]
      refine hR.congr (ihb wfb ib (fun a ha => hm a (Or.inr (Or.inr ha))) _ _ (fun k hk => hs k (by rw [Expr.size, hsb] at hk; exact hk)) a x x' hx) (hv.mono fun i hi => ?_)
      rw [hi, if_neg ht]
  | eq | opEq | glue | forEach => exact fun h => h.elim

end

end FastAD
