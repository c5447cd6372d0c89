import Verif.Proof.Layout
import Mathlib.Tactic.Ring
import Mathlib.Tactic.FieldSimp
import Mathlib.Tactic.Linarith
import Mathlib.Algebra.BigOperators.Intervals

/-!
# Basic lemmas about memory operations and functors
-/

namespace FastAD

variable {α : Type}

/-- Induction over expressions where the operand lists of n-ary nodes satisfy the claim elementwise. -/
theorem Expr.induct {P : Expr α → Prop}
    (var : ∀ v, P (.var v)) (const : ∀ sh c, P (.const sh c)) (cview : ∀ sh p, P (.cview sh p))
    (unary : ∀ op e w, P e → P (.unary op e w))
    (binary : ∀ op l r w, P l → P r → P (.binary op l r w))
    (pow : ∀ n e w, P e → P (.pow n e w))
    (prodElem : ∀ e w c, P e → P (.prodElem e w c))
    (transpose : ∀ e w, P e → P (.transpose e w))
    (dot : ∀ l r w, P l → P r → P (.dot l r w))
    (sumIter : ∀ es w, (∀ e ∈ es.toList, P e) → P (.sumIter es w))
    (prodIter : ∀ es w, (∀ e ∈ es.toList, P e) → P (.prodIter es w))
    (reduce : ∀ op es w, (∀ e ∈ es.toList, P e) → P (.reduce op es w))
    (ifElse : ∀ c a b w, P c → P a → P b → P (.ifElse c a b w))
    (eq : ∀ v e w, P e → P (.eq v e w))
    (opEq : ∀ op v e w c, P e → P (.opEq op v e w c))
    (glue : ∀ l r w, P l → P r → P (.glue l r w))
    (forEach : ∀ es w, (∀ e ∈ es.toList, P e) → P (.forEach es w)) : ∀ e, P e := by
  intro e
  refine Expr.rec (motive_1 := P) (motive_2 := fun es => ∀ e ∈ es.toList, P e)
    var const cview unary binary pow prodElem transpose dot sumIter prodIter reduce ifElse eq opEq glue forEach
    ?_ ?_ e
  · intro e he; simp [Exprs.toList] at he
  · intro e es he hes x hx
    simp only [Exprs.toList, List.mem_cons] at hx
    rcases hx with rfl | hx
    · exact he
    · exact hes x hx

theorem Exprs.WFs.mem {es : Exprs α} (h : es.WFs) : ∀ e ∈ es.toList, e.WF := by
  induction es using Exprs.rec (motive_1 := fun _ => True) with
  | nil => simp [Exprs.toList]
  | cons e es _ ih =>
    intro x hx
    simp only [Exprs.toList, List.mem_cons] at hx
    rcases hx with rfl | hx
    · exact h.1
    · exact ih h.2 x hx
  | _ => trivial

theorem Exprs.nwfs_of {es : Exprs α} (h : ∀ e ∈ es.toList, e.NWF) : es.NWFs := by
  induction es using Exprs.rec (motive_1 := fun _ => True) with
  | nil => trivial
  | cons e es _ ih => exact ⟨h e (by simp [Exprs.toList]), ih fun x hx => h x (by simp [Exprs.toList, hx])⟩
  | _ => trivial

theorem Exprs.phAs_of {es : Exprs α} (h : ∀ e ∈ es.toList, e.phA = ∅) : es.phAs = ∅ := by
  induction es using Exprs.rec (motive_1 := fun _ => True) with
  | nil => rfl
  | cons e es _ ih =>
    show e.phA ∪ es.phAs = ∅
    rw [h e (by simp [Exprs.toList]), ih fun x hx => h x (by simp [Exprs.toList, hx]), Set.union_empty]
  | _ => trivial

/-- a pure well-formed expression is well-formed, and has no placeholders -/
theorem Expr.WF.nested_ph {e : Expr α} : e.WF → e.NWF ∧ e.phA = ∅ := by
  induction e using Expr.induct with
  | var | const | cview => intro h; exact ⟨h, rfl⟩
  | unary op e w ih | pow op e w ih | prodElem e w c ih | transpose e w ih => intro h; exact ⟨⟨(ih h.1).1, h.2⟩, (ih h.1).2⟩
  | binary op l r w ihl ihr | dot l r w ihl ihr =>
    intro h
    refine ⟨⟨(ihl h.1).1, (ihr h.2.1).1, h.2.2⟩, ?_⟩
    show l.phA ∪ r.phA = ∅
    rw [(ihl h.1).2, (ihr h.2.1).2, Set.union_empty]
  | sumIter es w ih | prodIter es w ih | reduce op es w ih =>
    intro h
    exact ⟨⟨Exprs.nwfs_of fun e he => (ih e he (h.1.mem e he)).1, h.2⟩, Exprs.phAs_of fun e he => (ih e he (h.1.mem e he)).2⟩
  | ifElse c a b w ihc iha ihb =>
    intro h
    refine ⟨⟨(ihc h.1).1, (iha h.2.1).1, (ihb h.2.2.1).1, h.2.2.2⟩, ?_⟩
    show c.phA ∪ (a.phA ∪ b.phA) = ∅
    rw [(ihc h.1).2, (iha h.2.1).2, (ihb h.2.2.1).2, Set.union_empty, Set.union_empty]
  | eq | opEq | glue | forEach => intro h; exact h.elim

theorem Expr.WF.nested {e : Expr α} (h : e.WF) : e.NWF := h.nested_ph.1

theorem Exprs.WFs.nested {es : Exprs α} (h : es.WFs) : es.NWFs := Exprs.nwfs_of fun e he => (h.mem e he).nested

theorem Expr.WF.no_ph {e : Expr α} (h : e.WF) : e.phA = ∅ := h.nested_ph.2

theorem addr_some (q : ℕ) : addr (some q) = q := rfl

theorem accessible_mem {ok : ℕ → Bool} {p : Option ℕ} {n k : ℕ} (h : accessible ok p n) (hk : k < n) :
    ok (addr p + k) = true := by
  cases p with
  | none => simp [accessible] at h; omega
  | some q => exact h k hk

section mem
variable [Zero α]

theorem trunc_of_lt {n k : ℕ} {f : ℕ → α} (h : k < n) : trunc n f k = f k := if_pos h

theorem trunc_congr {n : ℕ} {f g : ℕ → α} (h : ∀ k < n, f k = g k) : trunc n f = trunc n g := by
  funext k
  by_cases hk : k < n
  · simp [trunc, hk, h k hk]
  · simp [trunc, hk]

theorem trunc_trunc {n : ℕ} {f : ℕ → α} : trunc n (trunc n f) = trunc n f :=
  trunc_congr fun _ hk => trunc_of_lt hk

theorem readCells_eq {heap : ℕ → α} {ok : ℕ → Bool} {p : Option ℕ} {n : ℕ} (h : accessible ok p n) :
    readCells heap ok p n = some (trunc n (fun k => heap (addr p + k))) := if_pos h

theorem readCells_eq' {heap : ℕ → α} {ok : ℕ → Bool} {p : Option ℕ} {n : ℕ} {f : ℕ → α} (h : accessible ok p n)
    (hf : ∀ k < n, heap (addr p + k) = f k) :
    readCells heap ok p n = some (trunc n f) := by
  rw [readCells_eq h, trunc_congr hf]

end mem

theorem fillRange_add {heap : ℕ → α} {q n k : ℕ} {f : ℕ → α} (h : k < n) : fillRange heap q n f (q + k) = f k := by
  simp [fillRange, h]

theorem fillRange_not_mem {heap : ℕ → α} {p : Option ℕ} {n a : ℕ} {f : ℕ → α} (h : a ∉ rng p n) :
    fillRange heap (addr p) n f a = heap a := by
  simp only [fillRange]
  rw [if_neg]
  simpa [mem_rng] using h

theorem writeV_eq {s : St α} {p : Option ℕ} {n : ℕ} {f : ℕ → α} (h : accessible s.vok p n) :
    s.writeV p n f = some { s with val := fillRange s.val (addr p) n f } := if_pos h

theorem writeA_eq {s : St α} {p : Option ℕ} {n : ℕ} {f : ℕ → α} (h : accessible s.aok p n) :
    s.writeA p n f = some { s with adj := fillRange s.adj (addr p) n f } := if_pos h

theorem assignV_eq {s : St α} {p : Option ℕ} {n m : ℕ} {r : Ref α} {f : ℕ → α} (h : accessible s.vok p n)
    (hc : noClash p n r m) :
    s.assignV p n r m f = some { s with val := fillRange s.val (addr p) n f } := by
  rw [St.assignV, if_pos hc, writeV_eq h]

/-- disjoint ranges do not clash -/
theorem noClash_ptr {dst p : Option ℕ} {n m : ℕ} (h : Disjoint (rng dst n) (rng p m)) :
    noClash dst n (Ref.ptr p : Ref α) m := by
  simp only [noClash]
  by_contra hc
  push Not at hc
  obtain ⟨_, h2, h3, h4, h5⟩ := hc
  rw [Set.disjoint_left] at h
  rcases le_total (addr p) (addr dst) with hle | hle
  · exact h (a := addr dst) (by simp [mem_rng]; omega) (by simp [mem_rng]; omega)
  · exact h (a := addr p) (by simp [mem_rng]; omega) (by simp [mem_rng]; omega)

theorem Exprs.length_toList (es : Exprs α) : es.toList.length = es.length := by
  induction es using Exprs.rec (motive_1 := fun _ => True) with
  | nil => rfl
  | cons e es _ ih => simp [Exprs.toList, Exprs.length, ih]
  | _ => trivial

section real

theorem sumN_eq (n : ℕ) (f : ℕ → ℝ) : sumN n f = ∑ k ∈ Finset.range n, f k := by
  induction n with
  | zero => simp [sumN]
  | succ n ih => simp [sumN, ih, Finset.sum_range_succ]

theorem prodN_eq (n : ℕ) (f : ℕ → ℝ) : prodN n f = ∏ k ∈ Finset.range n, f k := by
  induction n with
  | zero => simp [prodN]
  | succ n ih => simp [prodN, ih, Finset.prod_range_succ]

theorem beq_iff (x y : ℝ) : Fn.beq x y = true ↔ x = y := by simp [Fn.beq]
theorem blt_iff (x y : ℝ) : Fn.blt x y = true ↔ x < y := by simp [Fn.blt]
theorem ble_iff (x y : ℝ) : Fn.ble x y = true ↔ x ≤ y := by simp [Fn.ble]

theorem toBool_iff (x : ℝ) : toBool x = true ↔ x ≠ 0 := by
  simp [toBool, Fn.beq]

theorem ofBool_eq (b : Bool) : (ofBool b : ℝ) = ind (b = true) := by
  cases b <;> simp [ofBool, ind]

theorem UOp.fmap_eq (op : UOp) (x : ℝ) : op.fmap x = op.real x := by
  cases op <;> simp [UOp.fmap, UOp.real, Fn.sin, Fn.cos, Fn.tan, Fn.asin, Fn.acos, Fn.atan, Fn.exp, Fn.log, Fn.sqrt,
    Fn.erf, Fn.sinh, Fn.cosh, Fn.tanh]

theorem BOp.fmap_eq (op : BOp) (b : Bool) (x y : ℝ) : op.fmap b x y = op.real b x y := by
  have hind : ∀ p q : Prop, (p ↔ q) → ind p = ind q := fun p q h => by rw [propext h]
  cases op
  case add => rfl
  case sub => rfl
  case mul => rfl
  case div => rfl
  case and =>
    simp only [BOp.fmap, BOp.real, ofBool_eq]
    split
    · apply hind; simp [toBool_iff]
    · simp only [blt_iff]
      split
      · rename_i h; exact (min_eq_right h.le).symm
      · rename_i h; exact (min_eq_left (not_lt.1 h)).symm
  case or =>
    simp only [BOp.fmap, BOp.real, ofBool_eq]
    split
    · apply hind; simp [toBool_iff]
    · simp only [blt_iff]
      split
      · rename_i h; exact (max_eq_right h.le).symm
      · rename_i h; exact (max_eq_left (not_lt.1 h)).symm
  all_goals
    simp only [BOp.fmap, BOp.real, ofBool_eq]
    apply hind
    simp [blt_iff, ble_iff, Fn.beq]

theorem powNat_eq (n : ℕ) (x : ℝ) : powNat n x = x ^ n := by
  induction n using Nat.strong_induction_on with
  | _ n ih =>
    unfold powNat
    split
    · rename_i h; simp [h]
    · split
      · rename_i h h2
        rw [ih (n / 2) (by omega), ← pow_add]
        congr 1; omega
      · rename_i h h2
        rw [ih (n - 1) (by omega), ← pow_succ']
        congr 1; omega

theorem powFunc_eq [HasInf ℝ] (n : ℤ) (x : ℝ) : powFunc n x = realPow n x := by
  unfold powFunc realPow
  split
  · rename_i h
    rw [if_neg (by omega), powNat_eq, ← zpow_natCast, Int.toNat_of_nonneg h]
  · rename_i h
    simp only [beq_iff]
    split
    · rename_i hx; rw [if_pos ⟨by omega, hx⟩]
    · rename_i hx
      rw [if_neg (by tauto), powNat_eq, ← zpow_natCast, Int.toNat_of_nonneg (by omega), one_div, inv_zpow, zpow_neg,
        inv_inv]

theorem arrayPow_eq [HasInf ℝ] (n : ℤ) (x : ℝ) : arrayPow n x = realPow n x := by
  unfold arrayPow realPow
  simp only [beq_iff]
  rfl

theorem RedOp.fmap1_eq [LinAlg ℝ] (op : RedOp) (sh : Shape) (x : ℕ → ℝ) :
    op.fmap1 sh.rows sh.size (trunc sh.size x) = op.real sh x := by
  rcases op with _ | _ | ⟨⟨⟩⟩ | ⟨⟨⟩⟩ | ⟨⟩
  · simp only [RedOp.fmap1, RedOp.real, sumN_eq]
    exact Finset.sum_congr rfl fun k hk => trunc_of_lt (Finset.mem_range.1 hk)
  · simp only [RedOp.fmap1, RedOp.real, sumN_eq]
    exact Finset.sum_congr rfl fun k hk => by rw [trunc_of_lt (Finset.mem_range.1 hk), sq]
  · rfl
  · rfl
  · simp only [RedOp.fmap1, RedOp.real, sq]
  · rfl
  · rfl
  · simp only [RedOp.fmap1, RedOp.real, one_add_one_eq_two]; rfl
  · rfl

end real

end FastAD
