import Verif.Spec.Exact
import Verif.Proof.Grad
import Verif.Proof.Bind

/-!
# Exact semantics of forward and backward evaluation over an arbitrary scalar type

`Stored`: the contents of the caches after `feval`.  `post`: what `get()` delivers after `beval` (that is the value computed by `feval`, except for `ProdIterNode`,
whose cached product is divided out and multiplied back, so that it is restored only up to rounding).  `gback`: what `beval` makes of the content of one adjoint cell.
-/

namespace FastAD

set_option linter.unusedSectionVars false
set_option linter.unusedSimpArgs false

variable {α : Type} [Zero α] [One α] [Add α] [Sub α] [Neg α] [Mul α] [Div α] [NatCast α] [IntCast α]
variable [Fn α] [HasInf α] [LinAlg α]

mutual
/-- all caches hold the values of their subexpressions (of an `if_else` only the branch that was taken) -/
def Expr.Stored : Expr α → (ℕ → α) → (ℕ → α) → Prop
  | .var v, m, h => ∀ a ∈ rng v.val v.size, h a = m a
  | .const _ _, _, _ => True
  | .cview sh p, m, h => ∀ a ∈ rng p sh.size, h a = m a
  | .unary op e w, m, h => e.Stored m h ∧ ∀ k < w.size, h (addr w.val + k) = (Expr.unary op e w).exact m k
  | .binary op l r w, m, h => l.Stored m h ∧ r.Stored m h ∧
      ∀ k < w.size, h (addr w.val + k) = (Expr.binary op l r w).exact m k
  | .pow n e w, m, h => e.Stored m h ∧ ∀ k < w.size, h (addr w.val + k) = (Expr.pow n e w).exact m k
  | .prodElem e w c, m, h => e.Stored m h ∧ ∀ k < w.size, h (addr w.val + k) = (Expr.prodElem e w c).exact m k
  | .transpose e w, m, h => e.Stored m h ∧ ∀ k < w.size, h (addr w.val + k) = (Expr.transpose e w).exact m k
  | .dot l r w, m, h => l.Stored m h ∧ r.Stored m h ∧
      ∀ k < w.size, h (addr w.val + k) = (Expr.dot l r w).exact m k
  | .sumIter es w, m, h => es.Storeds m h ∧ ∀ k < w.size, h (addr w.val + k) = (Expr.sumIter es w).exact m k
  | .prodIter es w, m, h => es.Storeds m h ∧ ∀ k < w.size, h (addr w.val + k) = (Expr.prodIter es w).exact m k
  | .reduce op es w, m, h => es.Storeds m h ∧ ∀ k < w.size, h (addr w.val + k) = (Expr.reduce op es w).exact m k
  | .ifElse c a b _, m, h => c.Stored m h ∧ (if toBool (c.exact m 0) = true then a.Stored m h else b.Stored m h)
  | _, _, _ => False
/-- the same for a list -/
def Exprs.Storeds : Exprs α → (ℕ → α) → (ℕ → α) → Prop
  | .nil, _, _ => True
  | .cons e es, m, h => e.Stored m h ∧ es.Storeds m h
end

/-- the reference returned by `feval` -/
def Expr.outRef : Expr α → (ℕ → α) → Ref α
  | .ifElse c a b _, m => if toBool (c.exact m 0) = true then a.outRef m else b.outRef m
  | e, _ => e.getRef

/-! ### The loops of the n-ary nodes -/

/-- operand values (with shapes) -/
abbrev Vals (α : Type) := List (Shape × (ℕ → α))

/-- value of operand number `i` -/
def Vals.nth (l : Vals α) (i : ℕ) : ℕ → α := (l[i]?.map Prod.snd).getD fun _ => 0

/-- The operand values seen by the reverse loop after `t` operands (the last `t`) have been processed: operand `i` changes from `D` to `P` if its `beval` is called, i.e.
if the loop has a seed for it. -/
def loopVals (sd : Vals α → ℕ → Option (ℕ → α)) (D P : Vals α) : ℕ → Vals α
  | 0 => D
  | t + 1 =>
    let V := loopVals sd D P t
    let i := D.length - (t + 1)
    if (sd V i).isSome then V.set i ((P[i]?).getD (.scl, fun _ => 0)) else V

/-- the seed for operand `i` -/
def loopSeed (sd : Vals α → ℕ → Option (ℕ → α)) (D P : Vals α) (i : ℕ) : Option (ℕ → α) :=
  sd (loopVals sd D P (D.length - (i + 1))) i

/-- does one of the first `n` coefficients equal zero?  (`no_optimize`, prod.hpp:87-92) -/
def hasZero (n : ℕ) (x : ℕ → α) : Bool := (List.range n).any fun k => Fn.beq (x k) 0

/-- product of all operands but number `i`, prod.hpp:94-100 -/
def othersOf (V : Vals α) (i k : ℕ) : α := (V.zipIdx).foldl (fun acc p => if p.2 = i then acc else acc * p.1.2 k) 1

/-- always a seed: in `ProdIterNode::beval` every operand is called -/
def always : Vals α → ℕ → Option (ℕ → α) := fun _ _ => some fun _ => 0

/-- the cached product after `t` operands have been processed -/
def prodCache (n : ℕ) (D P : Vals α) (f : ℕ → α) : ℕ → ℕ → α
  | 0 => f
  | t + 1 =>
    let i := D.length - (t + 1)
    if hasZero n (D.nth i) then fun k => othersOf (loopVals always D P t) i k * P.nth i k else prodCache n D P f t

/-- the seed handed to operand `i` by `ProdIterNode::beval` -/
def prodSeed (n : ℕ) (D P : Vals α) (f seed : ℕ → α) (i : ℕ) : ℕ → α :=
  let t := D.length - (i + 1)
  if hasZero n (D.nth i) then fun k => seed k * othersOf (loopVals always D P t) i k
  else fun k => seed k * prodCache n D P f t k / D.nth i k

/-- values truncated to their sizes, as they are read from memory -/
def truncs (l : Vals α) : Vals α := l.map fun x => (x.1, trunc x.1.size x.2)

mutual
/-- the value delivered after `beval` -/
def Expr.post : Expr α → (ℕ → α) → ℕ → α
  | .prodIter es w, m =>
      prodCache w.size (truncs (es.exacts m)) (truncs (es.posts m)) ((Expr.prodIter es w).exact m) es.length
  | .ifElse c a b _, m => if toBool (c.exact m 0) = true then a.post m else b.post m
  | e, m => e.exact m
/-- the same for a list -/
def Exprs.posts : Exprs α → (ℕ → α) → Vals α
  | .nil, _ => []
  | .cons e es, m => (e.shape, e.post m) :: es.posts m
end

mutual
/-- What `beval` with the given seed makes of the content `x` of the adjoint cell `a` of a variable. -/
def Expr.gback : Expr α → (ℕ → α) → (ℕ → α) → ℕ → α → α
  | .var v, _, seed, a, x => if addr v.adj ≤ a ∧ a < addr v.adj + v.size then x + seed (a - addr v.adj) else x
  | .unary op e w, m, seed, a, x =>
      e.gback m (fun k => op.bmap (seed k) (e.exact m k) ((Expr.unary op e w).exact m k)) a x
  | .binary op l r w, m, seed, a, x =>
      if op.isComparison then x else
        l.gback m (collapse l.shape w.shape w.size (fun k =>
          op.bl (seed k) (bcast l.shape (l.exact m) k) (bcast r.shape (if l.shape.isScl then r.exact m else r.post m) k)
            ((Expr.binary op l r w).exact m k))) a <|
        r.gback m (collapse r.shape w.shape w.size (fun k =>
          op.br (seed k) (bcast l.shape (l.exact m) k) (bcast r.shape (r.exact m) k)
            ((Expr.binary op l r w).exact m k))) a x
  | .pow n e w, m, seed, a, x =>
      if n = 0 then e.gback m (fun _ => 0) a x
      else if n = 1 then e.gback m seed a x
      else e.gback m (fun k => powSeed n (seed k) ((Expr.pow n e w).exact m k) (e.exact m k)) a x
  | .prodElem e w c, m, seed, a, x =>
      e.gback m (fun j => prodElemSeed e.size (e.exact m) ((Expr.prodElem e w c).exact m 0) (seed 0) j) a x
  | .transpose e _, m, seed, a, x => e.gback m (transposed e.shape.rows e.shape.cols seed) a x
  | .dot l r w, m, seed, a, x =>
      l.gback m (dotLSeed l.shape.rows l.shape.cols w.shape.cols (r.post m) seed) a <|
      r.gback m (dotRSeed l.shape.rows l.shape.cols (l.exact m) seed) a x
  | .sumIter es _, m, seed, a, x => es.gbacks m (fun _ => some seed) 0 a x
  | .prodIter es w, m, seed, a, x =>
      es.gbacks m (fun i => some (prodSeed w.size (truncs (es.exacts m)) (truncs (es.posts m))
        ((Expr.prodIter es w).exact m) seed i)) 0 a x
  | .reduce op es w, m, seed, a, x =>
      es.gbacks m (loopSeed (fun V i => op.bmap (seed 0) V ((Expr.reduce op es w).exact m 0) i)
        (truncs (es.exacts m)) (truncs (es.posts m))) 0 a x
  | .ifElse c p q _, m, seed, a, x => if toBool (c.exact m 0) = true then p.gback m seed a x else q.gback m seed a x
  | _, _, _, _, x => x
/-- the same for a list of expressions, element `i` being seeded with `sd i` (or not visited); the last element first -/
def Exprs.gbacks : Exprs α → (ℕ → α) → (ℕ → Option (ℕ → α)) → ℕ → ℕ → α → α
  | .nil, _, _, _, _, x => x
  | .cons e es, m, sd, i, a, x =>
      (match sd i with | some g => e.gback m g a (es.gbacks m sd (i + 1) a x) | none => es.gbacks m sd (i + 1) a x)
end

/-! ### Pointers of internal nodes do not matter -/

theorem strip_exact (m : ℕ → α) (e : Expr α) : e.strip.exact m = e.exact m := by
  have list : ∀ es : Exprs α, (∀ e ∈ es.toList, e.strip.exact m = e.exact m) →
      es.strips.exacts m = es.exacts m := by
    intro es
    induction es using Exprs.rec (motive_1 := fun _ => True) with
    | nil => intro _; rfl
    | cons e es _ ih =>
      intro hP
      simp only [Exprs.strips, Exprs.exacts, Expr.strip_shape]
      rw [ih (fun x hx => hP x (by simp [Exprs.toList, hx])), hP e (by simp [Exprs.toList])]
    | _ => trivial
  induction e using Expr.induct with
  | var | const | cview => rfl
  | unary op e w ih => funext k; simp only [Expr.strip, Expr.exact, ih]
  | pow op e w ih => funext k; simp only [Expr.strip, Expr.exact, ih]; rfl
  | prodElem op e w ih => funext k; simp only [Expr.strip, Expr.exact, ih, Expr.strip_size]
  | transpose e w ih => funext k; simp only [Expr.strip, Expr.exact, ih]; rfl
  | binary op l r w ihl ihr | dot l r w ihl ihr => funext k; simp only [Expr.strip, Expr.exact, ihl, ihr, Expr.strip_shape]; try rfl
  | sumIter es w ih | prodIter es w ih | reduce op es w ih => funext k; simp only [Expr.strip, Expr.exact, list es ih]
  | ifElse c x y w ihc ihx ihy => funext k; simp only [Expr.strip, Expr.exact, ihc, ihx, ihy]
  | eq | opEq | glue | forEach => rfl

theorem strips_exacts (m : ℕ → α) (es : Exprs α) : es.strips.exacts m = es.exacts m := by
  induction es using Exprs.rec (motive_1 := fun _ => True) with
  | nil => rfl
  | cons e es _ ih => simp only [Exprs.strips, Exprs.exacts, Expr.strip_shape, strip_exact, ih]
  | _ => trivial

theorem strips_length (es : Exprs α) : es.strips.length = es.length := by
  induction es using Exprs.rec (motive_1 := fun _ => True) with
  | nil => rfl
  | cons e es _ ih => simp only [Exprs.strips, Exprs.length, ih]
  | _ => trivial

theorem strip_post (m : ℕ → α) (e : Expr α) : e.strip.post m = e.post m := by
  have list : ∀ es : Exprs α, (∀ e ∈ es.toList, e.strip.post m = e.post m) →
      es.strips.posts m = es.posts m := by
    intro es
    induction es using Exprs.rec (motive_1 := fun _ => True) with
    | nil => intro _; rfl
    | cons e es _ ih =>
      intro hP
      simp only [Exprs.strips, Exprs.posts, Expr.strip_shape]
      rw [ih (fun x hx => hP x (by simp [Exprs.toList, hx])), hP e (by simp [Exprs.toList])]
    | _ => trivial
  have D := strip_exact m
  induction e using Expr.induct with
  | prodIter es w ih =>
    have := D (.prodIter es w)
    simp only [Expr.strip] at this
    simp only [Expr.strip, Expr.post, list es ih, strips_exacts, this, strips_length]
    rfl
  | ifElse c x y w ihc ihx ihy => simp only [Expr.strip, Expr.post, D, ihx, ihy]
  | var | const | cview | eq | opEq | glue | forEach => rfl
  | unary op e w | pow op e w | prodElem e w c | transpose e w | binary op l r w | dot l r w | sumIter es w | reduce op es w =>
    first
    | exact D (.unary _ _ _) | exact D (.pow _ _ _) | exact D (.prodElem _ _ _) | exact D (.transpose _ _)
    | exact D (.binary _ _ _ _) | exact D (.dot _ _ _) | exact D (.sumIter _ _) | exact D (.reduce _ _ _)

theorem strips_posts (m : ℕ → α) (es : Exprs α) : es.strips.posts m = es.posts m := by
  induction es using Exprs.rec (motive_1 := fun _ => True) with
  | nil => rfl
  | cons e es _ ih => simp only [Exprs.strips, Exprs.posts, Expr.strip_shape, strip_post, ih]
  | _ => trivial

theorem strip_gback (m : ℕ → α) (e : Expr α) : e.strip.gback m = e.gback m := by
  have list : ∀ es : Exprs α, (∀ e ∈ es.toList, e.strip.gback m = e.gback m) →
      es.strips.gbacks m = es.gbacks m := by
    intro es
    induction es using Exprs.rec (motive_1 := fun _ => True) with
    | nil => intro _; rfl
    | cons e es _ ih =>
      intro hP
      funext sd i a x
      simp only [Exprs.strips, Exprs.gbacks]
      rw [ih (fun x hx => hP x (by simp [Exprs.toList, hx])), hP e (by simp [Exprs.toList])]
    | _ => trivial
  have D := strip_exact m
  have P := strip_post m
  induction e using Expr.induct with
  | var | const | cview => rfl
  | unary op e w ih =>
    funext f a x
    have := D (.unary op e w)
    simp only [Expr.strip] at this
    simp only [Expr.strip, Expr.gback, ih, D, this]
  | pow n e w ih =>
    funext f a x
    have := D (.pow n e w)
    simp only [Expr.strip] at this
    simp only [Expr.strip, Expr.gback, ih, D, this]
  | prodElem e w c ih =>
    funext f a x
    have := D (.prodElem e w c)
    simp only [Expr.strip] at this
    simp only [Expr.strip, Expr.gback, ih, Expr.strip_size, D, this]
  | transpose e w ih => funext f a x; simp only [Expr.strip, Expr.gback, ih, Expr.strip_shape]
  | binary op l r w ihl ihr =>
    funext f a x
    have := D (.binary op l r w)
    simp only [Expr.strip] at this
    simp only [Expr.strip, Expr.gback, ihl, ihr, D, P, this, Expr.strip_shape]
    rfl
  | dot l r w ihl ihr => funext f a x; simp only [Expr.strip, Expr.gback, ihl, ihr, D, P, Expr.strip_shape]; rfl
  | sumIter es w ih => funext f a x; simp only [Expr.strip, Expr.gback, list es ih]
  | prodIter es w ih =>
    funext f a x
    have := D (.prodIter es w)
    simp only [Expr.strip] at this
    simp only [Expr.strip, Expr.gback, list es ih, strips_exacts, strips_posts, this]
    rfl
  | reduce op es w ih =>
    funext f a x
    have := D (.reduce op es w)
    simp only [Expr.strip] at this
    simp only [Expr.strip, Expr.gback, list es ih, strips_exacts, strips_posts, this]
  | ifElse c x y w ihc ihx ihy => funext f a x; simp only [Expr.strip, Expr.gback, D, ihx, ihy]
  | eq | opEq | glue | forEach => rfl

theorem Expr.exact_of_strip {e e' : Expr α} (h : e'.strip = e.strip) (m : ℕ → α) : e'.exact m = e.exact m := by
  rw [← strip_exact, h, strip_exact]
theorem Expr.post_of_strip {e e' : Expr α} (h : e'.strip = e.strip) (m : ℕ → α) : e'.post m = e.post m := by
  rw [← strip_post, h, strip_post]
theorem Expr.gback_of_strip {e e' : Expr α} (h : e'.strip = e.strip) (m : ℕ → α) : e'.gback m = e.gback m := by
  rw [← strip_gback, h, strip_gback]

/-! ### Dependence on the seed, support -/

theorem sumN_congr {n : ℕ} {f g : ℕ → α} (h : ∀ k < n, f k = g k) : sumN n f = sumN n g := by
  induction n with
  | zero => rfl
  | succ n ih => simp only [sumN]; rw [ih fun k hk => h k (by omega), h n (by omega)]

theorem prodN_congr {n : ℕ} {f g : ℕ → α} (h : ∀ k < n, f k = g k) : prodN n f = prodN n g := by
  induction n with
  | zero => rfl
  | succ n ih => simp only [prodN]; rw [ih fun k hk => h k (by omega), h n (by omega)]

/-- seeds that agree on the first `n` coefficients (or are both absent) -/
def SameSeed (n : ℕ) : Option (ℕ → α) → Option (ℕ → α) → Prop
  | some f, some g => ∀ k < n, f k = g k
  | none, none => True
  | _, _ => False

theorem SameSeed.refl (n : ℕ) (o : Option (ℕ → α)) : SameSeed n o o := by
  cases o <;> simp [SameSeed]

theorem collapse_same {op w : Shape} {n : ℕ} {f g : ℕ → α} (h : ∀ k < n, f k = g k) {N : ℕ}
    (hN : op.isScl = true ∧ w.isScl = false ∨ N ≤ n) :
    ∀ k < N, collapse op w n f k = collapse op w n g k := by
  intro k hk
  simp only [collapse]
  split
  · exact sumN_congr h
  · rename_i hc
    rcases hN with hN | hN
    · simp [hN] at hc
    · exact h k (by omega)

/-- Only the first `size` coefficients of the seed matter. -/
theorem gback_congr (m : ℕ → α) (e : Expr α) :
    ∀ (f g : ℕ → α), e.WF → (∀ k < e.size, f k = g k) → e.gback m f = e.gback m g := by
  have list : ∀ es : Exprs α, (∀ e ∈ es.toList, ∀ (f g : ℕ → α), e.WF → (∀ k < e.size, f k = g k) →
      e.gback m f = e.gback m g) → es.WFs → ∀ (sd sd' : ℕ → Option (ℕ → α)) (N : ℕ),
      (∀ e ∈ es.toList, e.size ≤ N) → (∀ i, SameSeed N (sd i) (sd' i)) → ∀ i a x,
      es.gbacks m sd i a x = es.gbacks m sd' i a x := by
    intro es
    induction es using Exprs.rec (motive_1 := fun _ => True) with
    | nil => intros; rfl
    | cons e es _ ih =>
      intro hP hwf sd sd' N hN hsd i a x
      simp only [Exprs.gbacks]
      rw [ih (fun x hx => hP x (by simp [Exprs.toList, hx])) hwf.2 sd sd' N
        (fun x hx => hN x (by simp [Exprs.toList, hx])) hsd]
      have h1 := hsd i
      have hle := hN e (by simp [Exprs.toList])
      cases h : sd i <;> cases h' : sd' i <;> simp only [h, h', SameSeed] at h1
      · rfl
      · simp only
        rw [hP e (by simp [Exprs.toList]) _ _ hwf.1 fun k hk => h1 k (by omega)]
    | _ => trivial
  induction e using Expr.induct with
  | var v =>
    intro f g _ h
    funext a x
    simp only [Expr.gback]
    split
    · rename_i hh; rw [h _ (by simp only [Expr.size, Expr.shape, Expr.view, View.size] at *; omega)]
    · rfl
  | const => intros; rfl
  | cview => intros; rfl
  | unary op e w ih =>
    intro f g hwf h
    funext a x
    simp only [Expr.gback]
    have hsz : e.size = w.size := by simp [Expr.size, View.size, hwf.2.1]
    rw [ih _ _ hwf.1 fun k hk => by rw [h k (by rw [hsz] at hk; exact hk)]]
  | binary op l r w ihl ihr =>
    intro f g hwf h
    obtain ⟨wfl, wfr, hok, hdims, _⟩ := hwf
    funext a x
    simp only [Expr.gback]
    split
    · rfl
    · refine (congrArg _ (congrFun (congrFun (ihr _ _ wfr ?_) a) x)).trans (congrFun (congrFun (ihl _ _ wfl ?_) a) _)
      · exact collapse_same (fun k hk => by rw [h k hk]) (operand_size wfr.shapeOk hok hdims.2.1)
      · exact collapse_same (fun k hk => by rw [h k hk]) (operand_size wfl.shapeOk hok hdims.1)
  | pow n e w ih =>
    intro f g hwf h
    funext a x
    simp only [Expr.gback]
    have hsz : e.size = w.size := by simp [Expr.size, View.size, hwf.2.1]
    split
    · rfl
    · split
      · rw [ih _ _ hwf.1 fun k hk => h k (by rw [hsz] at hk; exact hk)]
      · rw [ih _ _ hwf.1 fun k hk => by rw [h k (by rw [hsz] at hk; exact hk)]]
  | prodElem e w c ih =>
    intro f g hwf h
    funext a x
    simp only [Expr.gback]
    have h0 := h 0 (by show 0 < w.shape.size; rw [hwf.2.1]; simp [Shape.scl, Shape.size])
    rw [h0]
  | transpose e w ih =>
    intro f g hwf h
    funext a x
    simp only [Expr.gback]
    rw [ih _ _ hwf.1 fun k hk => ?_]
    simp only [transposed]
    apply h
    show _ < w.shape.size
    rw [hwf.2.2]
    have hk : k < e.shape.rows * e.shape.cols := hk
    have := idx_lt hk
    exact idx_lt' this.2 this.1
  | dot l r w ihl ihr =>
    intro f g hwf h
    obtain ⟨wfl, wfr, hkl, hkr, hcr, hsh, _⟩ := hwf
    have hcols : r.shape.kind = .vec → r.shape.cols = 1 := by
      intro hk; have := wfr.shapeOk; rw [Shape.Ok, hk] at this; exact this
    have hwr : w.shape.rows = l.shape.rows ∧ w.shape.cols = r.shape.cols := by
      rw [hsh]
      cases hk : r.shape.kind
      · exact absurd hk hkr
      · simp [Shape.ofDims, hcols hk]
      · simp [Shape.ofDims]
    have h : ∀ i < l.shape.rows, ∀ j < r.shape.cols, f (i + j * l.shape.rows) = g (i + j * l.shape.rows) := by
      intro i hi j hj
      apply h
      show _ < w.shape.rows * w.shape.cols
      rw [hwr.1, hwr.2]
      exact idx_lt' hi hj
    funext a x
    simp only [Expr.gback]
    rw [ihl _ (dotLSeed l.shape.rows l.shape.cols w.shape.cols (r.post m) g) wfl fun k hk => ?_,
      ihr _ (dotRSeed l.shape.rows l.shape.cols (l.exact m) g) wfr fun k hk => ?_]
    · have hk : k < r.shape.rows * r.shape.cols := hk
      rw [← hcr] at hk
      have := idx_lt hk
      simp only [dotRSeed]
      exact sumN_congr fun i hi => by rw [h i hi _ this.2]
    · have hk : k < l.shape.rows * l.shape.cols := hk
      have := idx_lt hk
      simp only [dotLSeed]
      exact sumN_congr fun j hj => by rw [h _ this.1 j (hwr.2 ▸ hj)]
  | sumIter es w ih =>
    intro f g hwf h
    funext a x
    simp only [Expr.gback]
    refine list es ih hwf.1 _ _ w.size (fun e he => by simp [Expr.size, View.size, hwf.2.2 e he]) (fun _ => ?_) _ _ _
    exact h
  | prodIter es w ih =>
    intro f g hwf h
    funext a x
    simp only [Expr.gback]
    refine list es ih hwf.1 _ _ w.size (fun e he => by simp [Expr.size, View.size, (hwf.2.2 e he).1])
      (fun i => ?_) _ _ _
    intro k hk
    simp only [prodSeed]
    split <;> dsimp only <;> rw [h k hk]
  | reduce op es w ih =>
    intro f g hwf h
    funext a x
    have h0 := h 0 (by show 0 < w.shape.size; rw [hwf.2.1]; simp [Shape.scl, Shape.size])
    simp only [Expr.gback, h0]
  | ifElse c x y w ihc ihx ihy =>
    intro f g hwf h
    obtain ⟨wfc, wfx, wfy, hkc, hic, hsx, hsy, -⟩ := hwf
    funext a x
    simp only [Expr.gback]
    split
    · rw [ihx _ _ wfx fun k hk => h k (by rw [Expr.size, hsx] at hk; exact hk)]
    · rw [ihy _ _ wfy fun k hk => h k (by rw [Expr.size, hsy] at hk; exact hk)]
  | eq | opEq | glue | forEach => intros; rfl

theorem gbacks_congr (m : ℕ → α) (es : Exprs α) : ∀ (sd sd' : ℕ → Option (ℕ → α)) (i : ℕ), es.WFs → ∀ N : ℕ,
      (∀ e ∈ es.toList, e.size ≤ N) → (∀ i, SameSeed N (sd i) (sd' i)) → ∀ a x,
      es.gbacks m sd i a x = es.gbacks m sd' i a x := by
  induction es using Exprs.rec (motive_1 := fun _ => True) with
  | nil => intros; rfl
  | cons e es _ ih =>
    intro sd sd' i hwf N hN hsd a x
    simp only [Exprs.gbacks]
    rw [ih sd sd' _ hwf.2 N (fun x hx => hN x (by simp [Exprs.toList, hx])) hsd]
    have h1 := hsd i
    have hle := hN e (by simp [Exprs.toList])
    cases h : sd i <;> cases h' : sd' i <;> simp only [h, h', SameSeed] at h1
    · rfl
    · simp only
      rw [gback_congr m e _ _ hwf.1 fun k hk => h1 k (by omega)]
  | _ => trivial

/-- The adjoint of a variable that is not mentioned is left alone. -/
theorem gback_support (m : ℕ → α) (e : Expr α) : ∀ (f : ℕ → α) (a : ℕ) (x : α), a ∉ e.readsA → e.gback m f a x = x := by
  have list : ∀ es : Exprs α, (∀ e ∈ es.toList, ∀ (f : ℕ → α) (a : ℕ) (x : α), a ∉ e.readsA → e.gback m f a x = x) →
      ∀ sd i a x, a ∉ es.readsAs → es.gbacks m sd i a x = x := by
    intro es
    induction es using Exprs.rec (motive_1 := fun _ => True) with
    | nil => intros; rfl
    | cons e es _ ih =>
      intro hP sd i a x ha
      simp only [Exprs.gbacks]
      have ha : a ∉ e.readsA ∪ es.readsAs := ha
      rw [Set.mem_union, not_or] at ha
      rw [ih (fun x hx => hP x (by simp [Exprs.toList, hx])) sd _ a x ha.2]
      cases sd i
      · rfl
      · exact hP e (by simp [Exprs.toList]) _ a x ha.1
    | _ => trivial
  induction e using Expr.induct with
  | var v => intro f a x ha; simp only [Expr.gback]; exact if_neg ha
  | const => intros; rfl
  | cview => intros; rfl
  | unary op e w ih => intro f a x ha; exact ih _ a x ha
  | binary op l r w ihl ihr =>
    intro f a x ha
    have ha : a ∉ l.readsA ∪ r.readsA := ha
    rw [Set.mem_union, not_or] at ha
    simp only [Expr.gback]
    split
    · rfl
    · rw [ihl _ a _ ha.1, ihr _ a _ ha.2]
  | pow n e w ih =>
    intro f a x ha
    have ha : a ∉ e.readsA := ha
    simp only [Expr.gback]
    split
    · exact ih _ a x ha
    · split
      · exact ih _ a x ha
      · exact ih _ a x ha
  | prodElem e w c ih => intro f a x ha; exact ih _ a x ha
  | transpose e w ih => intro f a x ha; exact ih _ a x ha
  | dot l r w ihl ihr =>
    intro f a x ha
    have ha : a ∉ l.readsA ∪ r.readsA := ha
    rw [Set.mem_union, not_or] at ha
    simp only [Expr.gback]
    rw [ihl _ a _ ha.1, ihr _ a _ ha.2]
  | sumIter es w ih | prodIter es w ih | reduce op es w ih =>
    intro f a x ha
    exact list es ih _ _ a x ha
  | ifElse c x y w ihc ihx ihy =>
    intro f a z ha
    have ha : a ∉ c.readsA ∪ (x.readsA ∪ y.readsA) := ha
    simp only [Set.mem_union, not_or] at ha
    simp only [Expr.gback]
    split
    · exact ihx _ a z ha.2.1
    · exact ihy _ a z ha.2.2
  | eq | opEq | glue | forEach => intros; rfl

theorem gbacks_support (m : ℕ → α) (es : Exprs α) : ∀ sd i a x, a ∉ es.readsAs → es.gbacks m sd i a x = x := by
  induction es using Exprs.rec (motive_1 := fun _ => True) with
  | nil => intros; rfl
  | cons e es _ ih =>
    intro sd i a x ha
    simp only [Exprs.gbacks]
    have ha : a ∉ e.readsA ∪ es.readsAs := ha
    rw [Set.mem_union, not_or] at ha
    rw [ih sd _ a x ha.2]
    cases sd i
    · rfl
    · exact gback_support m e _ a x ha.1
  | _ => trivial

/-! ### The value of a reduction -/

theorem exacts_shapes (m : ℕ → α) (es : Exprs α) : (es.exacts m).map Prod.fst = es.toList.map Expr.shape := by
  induction es using Exprs.rec (motive_1 := fun _ => True) with
  | nil => rfl
  | cons e es _ ih => simp only [Exprs.exacts, Exprs.toList, List.map_cons, ih]
  | _ => trivial

theorem isSome_bind {β γ : Type} {o : Option β} {f : β → Option γ} (ho : o.isSome = true) (hf : ∀ c, (f c).isSome = true) :
    (o.bind f).isSome = true := by
  cases o with
  | none => exact absurd ho (by simp)
  | some c => exact hf c

theorem isSome_ite {β : Type} {p : Prop} [Decidable p] {a b : Option β} (ha : a.isSome = true) (hb : b.isSome = true) :
    (if p then a else b).isSome = true := by
  split <;> assumption

theorem updateX_some {c : UniformCache α} {sa sb ra rb : Bool} {n : ℕ} {v : Args α} (hn : 0 < n) (h : ((sa || ra) && (sb || rb)) = true) :
    (c.updateX sa sb ra rb n v).isSome = true := by
  match n, hn with
  | n + 1, _ => rw [UniformCache.updateX, if_pos h]; rfl

/-- one call of `feval` of a log-density node is defined for the sound combinations of operand types -/
theorem once_some {o : StatOp} {k : Kinds} {n : ℕ} (h : o.Sound k n) (v : Args α) : ((o.node k n).once v).isSome = true := by
  refine isSome_bind (o := (o.node k n).ctor v) ?_ fun c => ?_
  · cases o with
    | normalVSS =>
      by_cases hk : k.x = .const
      · have hn : ¬ n = 0 := (h hk).ne'
        simp only [StatOp.node, normalVSS, hn, if_false]
        exact isSome_ite rfl rfl
      · have hk' : k.x.isConst = false := by revert hk; cases k.x <;> simp [ArgKind.isConst]
        simp only [StatOp.node, normalVSS, hk', Bool.false_eq_true, if_false]
        rfl
    | uniformVec sa sb =>
      obtain ⟨h1, h2⟩ := h
      simp only [StatOp.node, uniformVec]
      by_cases hk : ((sa || sb) && k.x.isConst) = true
      · rw [if_pos hk]
        rw [Bool.and_eq_true] at hk
        refine updateX_some (h1 hk.1) ?_
        have hx : k.x = .const := by have := hk.2; revert this; cases k.x <;> simp [ArgKind.isConst]
        have h2 := h2 hx
        have h3 := hk.1
        revert h2 h3
        cases sa <;> cases sb <;> simp <;> intro h <;> rw [h] <;> rfl
      · rw [if_neg hk]; rfl
    | _ => 
      simp only [StatOp.node, normalSSS, normalVVS, normalVSV, normalVVV, normalMat, cauchySSS, cauchyScl, cauchyVec, uniformSSS, bernoulliSS, bernoulliVS, bernoulliVV, wishart]
      repeat' apply isSome_ite
      all_goals rfl
  · cases o with
    | uniformVec sa sb =>
      simp only [StatOp.node, uniformVec]
      by_cases hs : (sa || sb) = true
      · rw [if_pos hs]
        refine isSome_bind (isSome_ite rfl (updateX_some (h.1 hs) (by simp))) fun c => ?_
        exact isSome_ite rfl rfl
      · rw [if_neg hs]
        exact isSome_ite rfl rfl
    | _ =>
      simp only [StatOp.node, normalSSS, normalVSS, normalVVS, normalVSV, normalVVV, normalMat, cauchySSS, cauchyScl, cauchyVec, uniformSSS, bernoulliSS, bernoulliVS, bernoulliVV, wishart, ret]
      repeat' apply isSome_ite
      all_goals rfl

/-- `feval` of a reduction is defined -/
theorem reduce_some {op : RedOp} {es : Exprs α} {w : View} (hwf : (Expr.reduce op es w).WF) (m : ℕ → α) :
    op.fmap ((es.exacts m).map fun x => (x.1, trunc x.1.size x.2)) = some ((Expr.reduce op es w).exact m 0) := by
  have key : (op.fmap ((es.exacts m).map fun x => (x.1, trunc x.1.size x.2))).isSome = true := by
    obtain ⟨-, -, ⟨e, rfl, -, -⟩ | ⟨o, k, rfl, n, hn, hsh, -, -, -, hs⟩⟩ := hwf
    · rfl
    · have hl : ((es.exacts m).map fun x => (x.1, trunc x.1.size x.2)).map Prod.fst = o.slots.map (o.shape n) := by
        rw [← hsh, ← exacts_shapes m, List.map_map]; rfl
      generalize ((es.exacts m).map fun x => (x.1, trunc x.1.size x.2)) = l at hl
      obtain ⟨v, hv⟩ : ∃ v, statArgs l = some (n, v) := by
        have h2 : o.slots = [.x, .a] ∨ o.slots = [.x, .a, .b] := by cases o <;> simp [StatOp.slots]
        rcases h2 with h2 | h2
        · rw [h2] at hl
          match l, hl with
          | [(s0, x), (s1, y)], hl =>
            simp only [List.map_cons, List.map_nil, List.cons.injEq] at hl
            exact ⟨_, by simp only [statArgs]; rw [hl.1, hn]⟩
        · rw [h2] at hl
          match l, hl with
          | [(s0, x), (s1, y), (s2, z)], hl =>
            simp only [List.map_cons, List.map_nil, List.cons.injEq] at hl
            exact ⟨_, by simp only [statArgs]; rw [hl.1, hn]⟩
      have hf : RedOp.fmap (.stat o k) l = o.fmap k l := by
        match l, hv with
        | [(s0, x), (s1, y)], _ => rfl
        | [(s0, x), (s1, y), (s2, z)], _ => rfl
      rw [hf, StatOp.fmap, hv]
      simp only [Option.bind_eq_bind, Option.bind_some]
      obtain ⟨c, hc⟩ := Option.isSome_iff_exists.1 (once_some hs v)
      rw [hc]; rfl
  obtain ⟨y, hy⟩ := Option.isSome_iff_exists.1 key
  rw [Expr.exact, hy]; rfl

end FastAD
