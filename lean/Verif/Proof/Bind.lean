import Verif.Proof.Beval

/-!
# Cache binding
-/

namespace FastAD

variable {α : Type}

/-- pointers advanced by a number of value and adjoint cells -/
def Pack.adv (b : Pack) (n : SizePack) : Pack := ⟨b.val.map (· + n.val), b.adj.map (· + n.adj)⟩

theorem SizePack.add_val (a b : SizePack) : (a + b).val = a.val + b.val := rfl
theorem SizePack.add_adj (a b : SizePack) : (a + b).adj = a.adj + b.adj := rfl
theorem SizePack.sub_val (a b : SizePack) : (a - b).val = a.val - b.val := rfl
theorem SizePack.sub_adj (a b : SizePack) : (a - b).adj = a.adj - b.adj := rfl

theorem Pack.adv_adv (b : Pack) (m n : SizePack) : (b.adv m).adv n = b.adv (m + n) := by
  simp only [Pack.adv, Option.map_map, SizePack.add_val, SizePack.add_adj]
  congr 1 <;> congr 1 <;> funext x <;> simp [Nat.add_assoc]

theorem Pack.adv_zero (b : Pack) : b.adv ⟨0, 0⟩ = b := by
  obtain ⟨v, a⟩ := b
  cases v <;> cases a <;> simp [Pack.adv]

theorem View.bind_snd (w : View) (b : Pack) : (w.bind b).2 = b.adv ⟨w.size, w.size⟩ := rfl
theorem View.bindVal_snd (w : View) (b : Pack) : (w.bindVal b).2 = b.adv ⟨w.size, 0⟩ := by
  obtain ⟨v, a⟩ := b
  cases a <;> simp [View.bindVal, Pack.adv]

theorem SizePack.ext' {a b : SizePack} (h1 : a.val = b.val) (h2 : a.adj = b.adj) : a = b := by
  cases a; cases b; simp_all

theorem SizePack.add_comm' (a b : SizePack) : a + b = b + a :=
  SizePack.ext' (Nat.add_comm _ _) (Nat.add_comm _ _)
theorem SizePack.add_assoc' (a b c : SizePack) : a + b + c = a + (b + c) :=
  SizePack.ext' (Nat.add_assoc _ _ _) (Nat.add_assoc _ _ _)

/-- a node's own share never exceeds the total -/
theorem single_le (e : Expr α) : e.single.val ≤ e.bindSize.val ∧ e.single.adj ≤ e.bindSize.adj := by
  cases e <;> simp only [Expr.bindSize, SizePack.add_val, SizePack.add_adj] <;>
    first
    | (constructor <;> omega)
    | simp [Expr.single]

theorem bind_adv (e : Expr α) : ∀ b : Pack, (e.bind b).2 = b.adv e.bindSize := by
  have list : ∀ es : Exprs α, (∀ e ∈ es.toList, ∀ b : Pack, (e.bind b).2 = b.adv e.bindSize) →
      ∀ b : Pack, (es.bind b).2 = b.adv es.bindSize := by
    intro es
    induction es using Exprs.rec (motive_1 := fun _ => True) with
    | nil => intro _ b; exact (Pack.adv_zero b).symm
    | cons e es _ ih =>
      intro hP b
      simp only [Exprs.bind, Exprs.bindSize]
      rw [ih (fun x hx => hP x (by simp [Exprs.toList, hx])), hP e (by simp [Exprs.toList]), Pack.adv_adv]
    | _ => trivial
  induction e using Expr.induct with
  | var | const | cview => intro b; exact (Pack.adv_zero b).symm
  | unary op e w ih =>
    intro b
    simp only [Expr.bind, Expr.bindSize, View.bind_snd, ih, Pack.adv_adv, Expr.single]
    rw [SizePack.add_comm']
  | binary op l r w ihl ihr =>
    intro b
    simp only [Expr.bind, Expr.bindSize, Expr.single]
    split <;> simp only [View.bind_snd, View.bindVal_snd, ihl, ihr, Pack.adv_adv] <;>
      rw [SizePack.add_comm', SizePack.add_assoc']
  | pow n e w ih =>
    intro b
    simp only [Expr.bind, Expr.bindSize, Expr.single]
    split <;> simp only [View.bind_snd, View.bindVal_snd, ih, Pack.adv_adv] <;> rw [SizePack.add_comm']
  | prodElem e w c ih =>
    intro b
    simp only [Expr.bind, Expr.bindSize, Expr.single, View.bindVal_snd, ih]
    rw [← Pack.adv_adv]
    simp [Pack.adv, Function.comp_def]
  | transpose e w ih =>
    intro b
    simp only [Expr.bind, Expr.bindSize, View.bind_snd, ih, Pack.adv_adv, Expr.single]
  | dot l r w ihl ihr =>
    intro b
    simp only [Expr.bind, Expr.bindSize, View.bind_snd, ihl, ihr, Pack.adv_adv, Expr.single]
    rw [SizePack.add_comm', SizePack.add_assoc']
  | sumIter es w ih | prodIter es w ih =>
    intro b
    simp only [Expr.bind, Expr.bindSize, View.bind_snd, list es ih, Pack.adv_adv, Expr.single]
  | reduce op es w ih =>
    intro b
    simp only [Expr.bind, Expr.bindSize, View.bindVal_snd, list es ih, Pack.adv_adv, Expr.single]
  | ifElse c x y w ihc ihx ihy =>
    intro b
    simp only [Expr.bind, Expr.bindSize, ihc, ihx, ihy, Pack.adv_adv]
  | eq v e w ih =>
    intro b
    obtain ⟨h1, h2⟩ := single_le e
    simp only [Expr.bind, Expr.bindSize, ih, Pack.adv, Option.map_map, SizePack.sub_val, SizePack.sub_adj]
    congr 1 <;> congr 1 <;> funext x <;> simp only [Function.comp] <;> omega
  | opEq op v e w c ih =>
    intro b
    simp only [Expr.bind, Expr.bindSize, View.bind_snd, ih, Pack.adv_adv, Expr.single]
    rw [SizePack.add_comm']
  | glue l r w ihl ihr =>
    intro b
    simp only [Expr.bind, Expr.bindSize, ihl, ihr, Pack.adv_adv]
  | forEach es w ih =>
    intro b
    simp only [Expr.bind, Expr.bindSize, list es ih]

theorem binds_adv (es : Exprs α) : ∀ b : Pack, (es.bind b).2 = b.adv es.bindSize := by
  induction es using Exprs.rec (motive_1 := fun _ => True) with
  | nil => intro b; exact (Pack.adv_zero b).symm
  | cons e es _ ih =>
    intro b
    simp only [Exprs.bind, Exprs.bindSize]
    rw [ih, bind_adv, Pack.adv_adv]
  | _ => trivial

/-! ### What binding does not change -/

/-- the view without its pointers -/
def View.strip (w : View) : View := .null w.shape

mutual
/-- the expression with the caches of all internal nodes unbound (variables keep their storage) -/
def Expr.strip : Expr α → Expr α
  | .var v => .var v
  | .const sh c => .const sh c
  | .cview sh p => .cview sh p
  | .unary op e w => .unary op e.strip w.strip
  | .binary op l r w => .binary op l.strip r.strip w.strip
  | .pow n e w => .pow n e.strip w.strip
  | .prodElem e w _ => .prodElem e.strip w.strip none
  | .transpose e w => .transpose e.strip w.strip
  | .dot l r w => .dot l.strip r.strip w.strip
  | .sumIter es w => .sumIter es.strips w.strip
  | .prodIter es w => .prodIter es.strips w.strip
  | .reduce op es w => .reduce op es.strips w.strip
  | .ifElse c a b w => .ifElse c.strip a.strip b.strip w.strip
  | .eq v e w => .eq v e.strip w.strip
  | .opEq op v e w c => .opEq op v e.strip w.strip c.strip
  | .glue l r w => .glue l.strip r.strip w.strip
  | .forEach es w => .forEach es.strips w.strip
/-- the same for lists -/
def Exprs.strips : Exprs α → Exprs α
  | .nil => .nil
  | .cons e es => .cons e.strip es.strips
end

theorem Exprs.length_strips (es : Exprs α) : es.strips.length = es.length := by
  induction es using Exprs.rec (motive_1 := fun _ => True) with
  | nil => rfl
  | cons e es _ ih => simp [Exprs.strips, Exprs.length, ih]
  | _ => trivial

theorem Exprs.toList_strips (es : Exprs α) : es.strips.toList = es.toList.map Expr.strip := by
  induction es using Exprs.rec (motive_1 := fun _ => True) with
  | nil => rfl
  | cons e es _ ih => simp [Exprs.strips, Exprs.toList, ih]
  | _ => trivial

theorem Expr.strip_shape (e : Expr α) : e.strip.shape = e.shape := by
  cases e <;> rfl
theorem Expr.strip_size (e : Expr α) : e.strip.size = e.size := by
  rw [Expr.size, Expr.strip_shape, Expr.size]
theorem Expr.strip_isIf (e : Expr α) : e.strip.isIf = e.isIf := by
  cases e <;> rfl
theorem Expr.strip_retKind (e : Expr α) : e.strip.retKind = e.retKind := by
  induction e using Expr.induct with
  | ifElse c x y w _ ihx _ => exact ihx
  | _ => rfl
theorem Expr.strip_single (e : Expr α) : e.strip.single = e.single := by
  cases e <;> simp [Expr.strip, Expr.single, Expr.strip_size] <;> rfl

theorem Expr.rebind_strip (e : Expr α) (v a : Option ℕ) : (e.rebind v a).strip = e.strip := by
  cases e <;> rfl

theorem bind_strip (e : Expr α) : ∀ b : Pack, (e.bind b).1.strip = e.strip := by
  have list : ∀ es : Exprs α, (∀ e ∈ es.toList, ∀ b : Pack, (e.bind b).1.strip = e.strip) →
      ∀ b : Pack, (es.bind b).1.strips = es.strips := by
    intro es
    induction es using Exprs.rec (motive_1 := fun _ => True) with
    | nil => intro _ b; rfl
    | cons e es _ ih =>
      intro hP b
      simp only [Exprs.bind, Exprs.strips]
      rw [ih (fun x hx => hP x (by simp [Exprs.toList, hx])), hP e (by simp [Exprs.toList])]
    | _ => trivial
  induction e using Expr.induct with
  | var | const | cview => intro b; rfl
  | unary op e w ih | transpose e w ih | prodElem e w c ih =>
    intro b
    simp only [Expr.bind, Expr.strip, ih]
    rfl
  | pow n e w ih =>
    intro b
    simp only [Expr.bind, Expr.strip]
    split <;> simp only [ih] <;> rfl
  | binary op l r w ihl ihr =>
    intro b
    simp only [Expr.bind, Expr.strip]
    split <;> simp only [ihl, ihr] <;> rfl
  | dot l r w ihl ihr =>
    intro b
    simp only [Expr.bind, Expr.strip, ihl, ihr]
    rfl
  | sumIter es w ih | prodIter es w ih | reduce op es w ih =>
    intro b
    simp only [Expr.bind, Expr.strip, list es ih]
    rfl
  | ifElse c x y w ihc ihx ihy =>
    intro b
    simp only [Expr.bind, Expr.strip, ihc, ihx, ihy]
  | eq v e w ih =>
    intro b
    simp only [Expr.bind, Expr.strip, Expr.rebind_strip, ih]
    rfl
  | opEq op v e w c ih =>
    intro b
    simp only [Expr.bind, Expr.strip, ih]
    rfl
  | glue l r w ihl ihr =>
    intro b
    simp only [Expr.bind, Expr.strip, ihl, ihr]
    rfl
  | forEach es w ih =>
    intro b
    simp only [Expr.bind, Expr.strip, list es ih]
    split <;> rfl

theorem binds_strip (es : Exprs α) : ∀ b : Pack, (es.bind b).1.strips = es.strips := by
  induction es using Exprs.rec (motive_1 := fun _ => True) with
  | nil => intro b; rfl
  | cons e es _ ih =>
    intro b
    simp only [Exprs.bind, Exprs.strips]
    rw [ih, bind_strip]
  | _ => trivial

/-- A property of expressions and lists that does not look at internal views. -/
theorem Expr.strip_argKind (e : Expr α) : e.strip.argKind = e.argKind := by cases e <;> rfl

theorem Expr.strip_isConstView (e : Expr α) : e.strip.isConstView = e.isConstView := by cases e <;> rfl

theorem strip_fits {o : StatOp} {k : Kinds} (es : Exprs α) : o.Fits k es.strips ↔ o.Fits k es := by
  have hz : es.strips.toList.zip o.slots = (es.toList.zip o.slots).map fun p => (p.1.strip, p.2) := by
    rw [Exprs.toList_strips, List.zip_map_left]; rfl
  simp only [StatOp.Fits, hz]
  simp only [Exprs.toList_strips, List.map_map, List.mem_map, forall_exists_index, and_imp, forall_apply_eq_imp_iff₂, Expr.strip_isIf, Expr.strip_isConstView]
  have h1 : (Expr.shape ∘ Expr.strip : Expr α → Shape) = Expr.shape := funext Expr.strip_shape
  have h2 : (Expr.argKind ∘ Expr.strip : Expr α → ArgKind) = Expr.argKind := funext Expr.strip_argKind
  rw [h1, h2]

theorem strip_WF (e : Expr α) : e.strip.WF ↔ e.WF := by
  have list : ∀ es : Exprs α, (∀ e ∈ es.toList, e.strip.WF ↔ e.WF) → (es.strips.WFs ↔ es.WFs) := by
    intro es
    induction es using Exprs.rec (motive_1 := fun _ => True) with
    | nil => intro _; rfl
    | cons e es _ ih =>
      intro hP
      simp only [Exprs.strips, Exprs.WFs]
      rw [ih (fun x hx => hP x (by simp [Exprs.toList, hx])), hP e (by simp [Exprs.toList])]
    | _ => trivial
  induction e using Expr.induct with
  | var | const | cview => rfl
  | unary op e w ih => simp only [Expr.strip, Expr.WF, ih, Expr.strip_shape, Expr.strip_isIf]; rfl
  | binary op l r w ihl ihr => simp only [Expr.strip, Expr.WF, ihl, ihr, Expr.strip_shape, Expr.strip_isIf]; rfl
  | pow n e w ih => simp only [Expr.strip, Expr.WF, ih, Expr.strip_shape, Expr.strip_isIf]; rfl
  | prodElem e w c ih => simp only [Expr.strip, Expr.WF, ih, Expr.strip_isIf]; rfl
  | transpose e w ih => simp only [Expr.strip, Expr.WF, ih, Expr.strip_shape]; rfl
  | dot l r w ihl ihr => simp only [Expr.strip, Expr.WF, ihl, ihr, Expr.strip_shape, Expr.strip_isIf]; rfl
  | sumIter es w ih =>
    simp only [Expr.strip, Expr.WF, list es ih, Exprs.toList_strips, List.mem_map, forall_exists_index, and_imp,
      forall_apply_eq_imp_iff₂, Expr.strip_shape]
    rfl
  | prodIter es w ih =>
    simp only [Expr.strip, Expr.WF, list es ih, Exprs.toList_strips, List.mem_map, forall_exists_index, and_imp,
      forall_apply_eq_imp_iff₂, Expr.strip_shape, Expr.strip_isIf]
    rfl
  | reduce op es w ih =>
    simp only [Expr.strip, Expr.WF, list es ih]
    refine and_congr_right fun _ => and_congr_right fun _ => ?_
    constructor
    · rintro (⟨e, he, h1, h2⟩ | ⟨o, k, h1, h2⟩)
      rotate_left
      · exact .inr ⟨o, k, h1, (strip_fits es).1 h2⟩
      cases es with
      | nil => simp [Exprs.strips] at he
      | cons x xs =>
        cases xs with
        | nil =>
          simp only [Exprs.strips, Exprs.cons.injEq, and_true] at he
          subst he
          rw [Expr.strip_shape] at h1
          rw [Expr.strip_isIf] at h2
          exact .inl ⟨x, rfl, h1, h2⟩
        | cons => simp [Exprs.strips] at he
    · rintro (⟨e, rfl, h1, h2⟩ | ⟨o, k, h1, h2⟩)
      rotate_left
      · exact .inr ⟨o, k, h1, (strip_fits es).2 h2⟩
      exact .inl ⟨e.strip, rfl, by rw [Expr.strip_shape]; exact h1, by rw [Expr.strip_isIf]; exact h2⟩
  | ifElse c x y w ihc ihx ihy =>
    simp only [Expr.strip, Expr.WF, ihc, ihx, ihy, Expr.strip_shape, Expr.strip_isIf, Expr.strip_retKind]; rfl
  | eq | opEq | glue | forEach => rfl

theorem strip_defs (e : Expr α) : e.strip.defs = e.defs := by
  induction e using Expr.induct with
  | glue l r w ihl ihr => simp only [Expr.strip, Expr.defs, ihl, ihr]
  | _ => rfl

theorem strip_defsA (e : Expr α) : e.strip.defsA = e.defsA := by
  induction e using Expr.induct with
  | glue l r w ihl ihr => simp only [Expr.strip, Expr.defsA, ihl, ihr]
  | _ => rfl

theorem strip_reads (e : Expr α) : e.strip.reads = e.reads := by
  have list : ∀ es : Exprs α, (∀ e ∈ es.toList, e.strip.reads = e.reads) → es.strips.readss = es.readss := by
    intro es
    induction es using Exprs.rec (motive_1 := fun _ => True) with
    | nil => intro _; rfl
    | cons e es _ ih =>
      intro hP
      simp only [Exprs.strips, Exprs.readss]
      rw [ih (fun x hx => hP x (by simp [Exprs.toList, hx])), hP e (by simp [Exprs.toList])]
    | _ => trivial
  induction e using Expr.induct with
  | var | const | cview => rfl
  | unary op e w ih | pow op e w ih | prodElem op e w ih | transpose e w ih => simp only [Expr.strip, Expr.reads, ih]
  | binary op l r w ihl ihr | dot l r w ihl ihr => simp only [Expr.strip, Expr.reads, ihl, ihr]
  | sumIter es w ih | prodIter es w ih | reduce op es w ih => simp only [Expr.strip, Expr.reads, list es ih]
  | ifElse c x y w ihc ihx ihy => simp only [Expr.strip, Expr.reads, ihc, ihx, ihy]
  | eq v e w ih => simp only [Expr.strip, Expr.reads, ih]
  | glue l r w ihl ihr => simp only [Expr.strip, Expr.reads, ihl, ihr, strip_defs]
  | opEq | forEach => rfl

theorem strip_readsA (e : Expr α) : e.strip.readsA = e.readsA := by
  have list : ∀ es : Exprs α, (∀ e ∈ es.toList, e.strip.readsA = e.readsA) → es.strips.readsAs = es.readsAs := by
    intro es
    induction es using Exprs.rec (motive_1 := fun _ => True) with
    | nil => intro _; rfl
    | cons e es _ ih =>
      intro hP
      simp only [Exprs.strips, Exprs.readsAs]
      rw [ih (fun x hx => hP x (by simp [Exprs.toList, hx])), hP e (by simp [Exprs.toList])]
    | _ => trivial
  induction e using Expr.induct with
  | var | const | cview => rfl
  | unary op e w ih | pow op e w ih | prodElem op e w ih | transpose e w ih => simp only [Expr.strip, Expr.readsA, ih]
  | binary op l r w ihl ihr | dot l r w ihl ihr => simp only [Expr.strip, Expr.readsA, ihl, ihr]
  | sumIter es w ih | prodIter es w ih | reduce op es w ih => simp only [Expr.strip, Expr.readsA, list es ih]
  | ifElse c x y w ihc ihx ihy => simp only [Expr.strip, Expr.readsA, ihc, ihx, ihy]
  | eq v e w ih => simp only [Expr.strip, Expr.readsA, ih]
  | glue l r w ihl ihr => simp only [Expr.strip, Expr.readsA, ihl, ihr, strip_defsA]
  | opEq | forEach => rfl

section real
variable [HasInf ℝ] [LinAlg ℝ]

theorem strip_den_both (e : Expr ℝ) : (∀ m, e.strip.denote m = e.denote m) ∧ (∀ m, e.strip.exec m = e.exec m) := by
  have list : ∀ es : Exprs ℝ, (∀ e ∈ es.toList, (∀ m, e.strip.denote m = e.denote m) ∧ (∀ m, e.strip.exec m = e.exec m)) →
      (∀ m, es.strips.denotes m = es.denotes m) ∧ (∀ m, es.strips.execs m = es.execs m) := by
    intro es
    induction es using Exprs.rec (motive_1 := fun _ => True) with
    | nil => intro _; exact ⟨fun _ => rfl, fun _ => rfl⟩
    | cons e es _ ih =>
      intro hP
      obtain ⟨i1, i2⟩ := ih fun x hx => hP x (by simp [Exprs.toList, hx])
      obtain ⟨p1, p2⟩ := hP e (by simp [Exprs.toList])
      exact ⟨fun m => by simp only [Exprs.strips, Exprs.denotes, Expr.strip_shape, i1, p1], fun m => by simp only [Exprs.strips, Exprs.execs, i2, p2]⟩
    | _ => trivial
  induction e using Expr.induct with
  | var | const | cview => exact ⟨fun _ => rfl, fun _ => rfl⟩
  | unary op e w ih | pow op e w ih => exact ⟨fun m => by funext k; simp only [Expr.strip, Expr.denote, ih.1], fun _ => rfl⟩
  | prodElem op e w ih => exact ⟨fun m => by funext k; simp only [Expr.strip, Expr.denote, ih.1, Expr.strip_size], fun _ => rfl⟩
  | transpose e w ih => exact ⟨fun m => by funext k; simp only [Expr.strip, Expr.denote, ih.1]; rfl, fun _ => rfl⟩
  | binary op l r w ihl ihr | dot l r w ihl ihr => exact ⟨fun m => by funext k; simp only [Expr.strip, Expr.denote, ihl.1, ihr.1, Expr.strip_shape]; try rfl, fun _ => rfl⟩
  | sumIter es w ih | prodIter es w ih | reduce op es w ih => exact ⟨fun m => by funext k; simp only [Expr.strip, Expr.denote, (list es ih).1], fun _ => rfl⟩
  | ifElse c x y w ihc ihx ihy => exact ⟨fun m => by funext k; simp only [Expr.strip, Expr.denote, ihc.1, ihx.1, ihy.1], fun _ => rfl⟩
  | eq v e w ih => exact ⟨fun m => by funext k; simp only [Expr.strip, Expr.denote, ih.1], fun m => by simp only [Expr.strip, Expr.exec, ih.1]⟩
  | opEq op v e w c ih => exact ⟨fun _ => rfl, fun m => by simp only [Expr.strip, Expr.exec, ih.1, Expr.strip_shape]⟩
  | glue l r w ihl ihr => exact ⟨fun m => by funext k; simp only [Expr.strip, Expr.denote, ihl.2, ihr.1], fun m => by simp only [Expr.strip, Expr.exec, ihl.2, ihr.2]⟩
  | forEach es w ih => exact ⟨fun _ => rfl, fun m => by simp only [Expr.strip, Expr.exec, (list es ih).2]⟩

theorem strip_denote (m : ℕ → ℝ) (e : Expr ℝ) : e.strip.denote m = e.denote m := (strip_den_both e).1 m

theorem strip_execN (m : ℕ → ℝ) (e : Expr ℝ) : e.strip.exec m = e.exec m := (strip_den_both e).2 m

theorem strips_denotes (m : ℕ → ℝ) (es : Exprs ℝ) : es.strips.denotes m = es.denotes m := by
  induction es using Exprs.rec (motive_1 := fun _ => True) with
  | nil => rfl
  | cons e es _ ih => simp only [Exprs.strips, Exprs.denotes, Expr.strip_shape, strip_denote, ih]
  | _ => trivial

theorem strip_grad_both (e : Expr ℝ) : (∀ m, e.strip.grad m = e.grad m) ∧ (∀ m, e.strip.gradS m = e.gradS m) := by
  have list : ∀ es : Exprs ℝ, (∀ e ∈ es.toList, (∀ m, e.strip.grad m = e.grad m) ∧ (∀ m, e.strip.gradS m = e.gradS m)) →
      ∀ m, es.strips.grads m = es.grads m := by
    intro es
    induction es using Exprs.rec (motive_1 := fun _ => True) with
    | nil => intro _ m; rfl
    | cons e es _ ih =>
      intro hP m
      funext sd i a
      simp only [Exprs.strips, Exprs.grads]
      rw [ih (fun x hx => hP x (by simp [Exprs.toList, hx])), (hP e (by simp [Exprs.toList])).1]
    | _ => trivial
  have D := fun m => strip_denote m
  induction e using Expr.induct with
  | var | const | cview => exact ⟨fun _ => rfl, fun _ => rfl⟩
  | unary op e w ih =>
    refine ⟨fun m => ?_, fun _ => rfl⟩
    funext f a
    have := D m (.unary op e w)
    simp only [Expr.strip] at this
    simp only [Expr.strip, Expr.grad, ih.1, D, this]
  | pow n e w ih =>
    refine ⟨fun m => ?_, fun _ => rfl⟩
    funext f a
    have := D m (.pow n e w)
    simp only [Expr.strip] at this
    simp only [Expr.strip, Expr.grad, ih.1, D, this]
  | prodElem op e w ih => exact ⟨fun m => by funext f a; simp only [Expr.strip, Expr.grad, ih.1, Expr.strip_size, D], fun _ => rfl⟩
  | transpose e w ih => exact ⟨fun m => by funext f a; simp only [Expr.strip, Expr.grad, ih.1, Expr.strip_shape], fun _ => rfl⟩
  | binary op l r w ihl ihr =>
    refine ⟨fun m => ?_, fun _ => rfl⟩
    funext f a
    have := D m (.binary op l r w)
    simp only [Expr.strip] at this
    simp only [Expr.strip, Expr.grad, ihl.1, ihr.1, D, this, Expr.strip_shape]
    rfl
  | dot l r w ihl ihr => exact ⟨fun m => by funext f a; simp only [Expr.strip, Expr.grad, ihl.1, ihr.1, D, Expr.strip_shape]; rfl, fun _ => rfl⟩
  | sumIter es w ih => exact ⟨fun m => by funext f a; simp only [Expr.strip, Expr.grad, list es ih], fun _ => rfl⟩
  | prodIter es w ih => exact ⟨fun m => by funext f a; simp only [Expr.strip, Expr.grad, list es ih, strips_denotes], fun _ => rfl⟩
  | reduce op es w ih =>
    refine ⟨fun m => ?_, fun _ => rfl⟩
    funext f a
    have := D m (.reduce op es w)
    simp only [Expr.strip] at this
    simp only [Expr.strip, Expr.grad, list es ih, strips_denotes, this]
  | ifElse c x y w ihc ihx ihy => exact ⟨fun m => by funext f a; simp only [Expr.strip, Expr.grad, D, ihx.1, ihy.1], fun _ => rfl⟩
  | eq v e w ih => exact ⟨fun _ => rfl, fun m => by funext f a; simp only [Expr.strip, Expr.gradS, ih.1]⟩
  | glue l r w ihl ihr =>
    exact ⟨fun m => by funext f a; simp only [Expr.strip, Expr.grad, strip_execN, ihl.2, ihr.1]; by_cases h : a ∈ l.defsA <;> simp [h, strip_defsA],
      fun m => by funext f a; simp only [Expr.strip, Expr.gradS, strip_execN, ihl.2, ihr.2]; by_cases h : a ∈ l.defsA <;> simp [h, strip_defsA]⟩
  | opEq | forEach => exact ⟨fun _ => rfl, fun _ => rfl⟩

theorem strip_grad (m : ℕ → ℝ) (e : Expr ℝ) : e.strip.grad m = e.grad m := (strip_grad_both e).1 m

end real

/-- two expressions that differ only in the pointers of internal nodes -/
theorem Expr.shape_of_strip {e e' : Expr α} (h : e'.strip = e.strip) : e'.shape = e.shape := by
  rw [← Expr.strip_shape, h, Expr.strip_shape]
theorem Expr.WF_of_strip {e e' : Expr α} (h : e'.strip = e.strip) : e'.WF ↔ e.WF := by
  rw [← strip_WF, h, strip_WF]
theorem Expr.reads_of_strip {e e' : Expr α} (h : e'.strip = e.strip) : e'.reads = e.reads := by
  rw [← strip_reads, h, strip_reads]
theorem Expr.readsA_of_strip {e e' : Expr α} (h : e'.strip = e.strip) : e'.readsA = e.readsA := by
  rw [← strip_readsA, h, strip_readsA]
theorem Expr.denote_of_strip [HasInf ℝ] [LinAlg ℝ] {e e' : Expr ℝ} (h : e'.strip = e.strip) (m : ℕ → ℝ) :
    e'.denote m = e.denote m := by
  rw [← strip_denote, h, strip_denote]
theorem Expr.grad_of_strip [HasInf ℝ] [LinAlg ℝ] {e e' : Expr ℝ} (h : e'.strip = e.strip) (m : ℕ → ℝ) :
    e'.grad m = e.grad m := by
  rw [← strip_grad, h, strip_grad]

/-! ### Binding yields disjoint, accessible caches -/

mutual
/-- the storage of every variable and constant view mentioned is accessible -/
def Expr.LeavesOk (vok aok : ℕ → Bool) : Expr α → Prop
  | .var v => accessible vok v.val v.size ∧ accessible aok v.adj v.size
  | .const _ _ => True
  | .cview sh p => accessible vok p sh.size
  | .unary _ e _ => e.LeavesOk vok aok
  | .binary _ l r _ => l.LeavesOk vok aok ∧ r.LeavesOk vok aok
  | .pow _ e _ => e.LeavesOk vok aok
  | .prodElem e _ _ => e.LeavesOk vok aok
  | .transpose e _ => e.LeavesOk vok aok
  | .dot l r _ => l.LeavesOk vok aok ∧ r.LeavesOk vok aok
  | .sumIter es _ => es.LeavesOks vok aok
  | .prodIter es _ => es.LeavesOks vok aok
  | .reduce _ es _ => es.LeavesOks vok aok
  | .ifElse c a b _ => c.LeavesOk vok aok ∧ a.LeavesOk vok aok ∧ b.LeavesOk vok aok
  | .eq v e _ => accessible vok v.val v.size ∧ accessible aok v.adj v.size ∧ e.LeavesOk vok aok
  | .opEq _ v e _ _ => accessible vok v.val v.size ∧ accessible aok v.adj v.size ∧ e.LeavesOk vok aok
  | .glue l r _ => l.LeavesOk vok aok ∧ r.LeavesOk vok aok
  | .forEach es _ => es.LeavesOks vok aok
/-- the same for lists -/
def Exprs.LeavesOks (vok aok : ℕ → Bool) : Exprs α → Prop
  | .nil => True
  | .cons e es => e.LeavesOk vok aok ∧ es.LeavesOks vok aok
end

/-- splitting an accessible block of cells -/
theorem accessible_split {ok : ℕ → Bool} {p : Option ℕ} {a b : ℕ} (h : accessible ok p (a + b)) :
    accessible ok p a ∧ accessible ok (p.map (· + a)) b ∧ Disjoint (rng p a) (rng (p.map (· + a)) b) ∧
    rng p a ⊆ rng p (a + b) ∧ rng (p.map (· + a)) b ⊆ rng p (a + b) := by
  cases p with
  | none =>
    simp only [accessible] at h
    have ha : a = 0 := by omega
    have hb : b = 0 := by omega
    subst ha hb
    have hemp : rng none 0 = ∅ := by ext x; simp [mem_rng]
    refine ⟨rfl, rfl, ?_, ?_, ?_⟩
    · simp [hemp]
    · exact subset_rfl
    · exact subset_rfl
  | some q =>
    simp only [accessible, Option.map_some] at h ⊢
    refine ⟨fun k hk => h k (by omega), fun k hk => by rw [Nat.add_assoc]; exact h _ (by omega), ?_, ?_, ?_⟩
    · rw [Set.disjoint_left]
      intro x h1 h2
      simp only [mem_rng, addr_some] at h1 h2
      omega
    · intro x h1; simp only [mem_rng, addr_some] at h1 ⊢; omega
    · intro x h1; simp only [mem_rng, addr_some] at h1 ⊢; omega

/-- Outcome of binding a pure expression to a block of cells. -/
structure BindOk (vok aok : ℕ → Bool) (e' : Expr α) (b : Pack) (n : SizePack) : Prop where
  wb : e'.WB vok aok
  ownV : e'.ownV ⊆ rng b.val n.val
  ownA : e'.ownA ⊆ rng b.adj n.adj

structure BindsOk (vok aok : ℕ → Bool) (es' : Exprs α) (b : Pack) (n : SizePack) : Prop where
  wb : es'.WBs vok aok
  ownV : es'.ownVs ⊆ rng b.val n.val
  ownA : es'.ownAs ⊆ rng b.adj n.adj

theorem Pack.adv_val (b : Pack) (n : SizePack) : (b.adv n).val = b.val.map (· + n.val) := rfl
theorem Pack.adv_adj (b : Pack) (n : SizePack) : (b.adv n).adj = b.adj.map (· + n.adj) := rfl

theorem bind_ok (vok aok : ℕ → Bool) (e : Expr α) : ∀ b : Pack, e.WF → e.LeavesOk vok aok →
    accessible vok b.val e.bindSize.val → accessible aok b.adj e.bindSize.adj →
    BindOk vok aok (e.bind b).1 b e.bindSize := by
  have list : ∀ es : Exprs α, (∀ e ∈ es.toList, ∀ b : Pack, e.WF → e.LeavesOk vok aok →
      accessible vok b.val e.bindSize.val → accessible aok b.adj e.bindSize.adj →
      BindOk vok aok (e.bind b).1 b e.bindSize) → ∀ b : Pack, es.WFs → es.LeavesOks vok aok →
      accessible vok b.val es.bindSize.val → accessible aok b.adj es.bindSize.adj →
      BindsOk vok aok (es.bind b).1 b es.bindSize := by
    intro es
    induction es using Exprs.rec (motive_1 := fun _ => True) with
    | nil =>
      intro _ b _ _ _ _
      exact ⟨trivial, Set.empty_subset _, Set.empty_subset _⟩
    | cons e es _ ih =>
      intro hP b hwf hl hv ha
      simp only [Exprs.bindSize, SizePack.add_val, SizePack.add_adj] at hv ha
      obtain ⟨hv1, hv2, hvd, hvs1, hvs2⟩ := accessible_split hv
      obtain ⟨ha1, ha2, had, has1, has2⟩ := accessible_split ha
      have h1 := hP e (by simp [Exprs.toList]) b hwf.1 hl.1 hv1 ha1
      have h2 := ih (fun x hx => hP x (by simp [Exprs.toList, hx])) (b.adv e.bindSize) hwf.2 hl.2 hv2 ha2
      simp only [Exprs.bind, Exprs.bindSize, bind_adv]
      refine ⟨⟨h1.wb, h2.wb, hvd.mono h1.ownV h2.ownV, had.mono h1.ownA h2.ownA⟩, ?_, ?_⟩
      · exact Set.union_subset (h1.ownV.trans hvs1) (h2.ownV.trans hvs2)
      · exact Set.union_subset (h1.ownA.trans has1) (h2.ownA.trans has2)
    | _ => trivial
  induction e using Expr.induct with
  | var v => intro b _ hl _ _; exact ⟨hl, by simp [Expr.bind, Expr.ownV, Expr.innerV, Expr.valRoot], by simp [Expr.bind, Expr.ownA, Expr.innerA, Expr.adjRoot]⟩
  | const v => intro b _ hl _ _; exact ⟨hl, by simp [Expr.bind, Expr.ownV, Expr.innerV, Expr.valRoot], by simp [Expr.bind, Expr.ownA, Expr.innerA, Expr.adjRoot]⟩
  | cview v => intro b _ hl _ _; exact ⟨hl, by simp [Expr.bind, Expr.ownV, Expr.innerV, Expr.valRoot], by simp [Expr.bind, Expr.ownA, Expr.innerA, Expr.adjRoot]⟩
  | unary op e w ih =>
    intro b hwf hl hv ha
    have hsz : (Expr.unary op e w).bindSize = e.bindSize + ⟨w.size, w.size⟩ := by
      simp only [Expr.bindSize, Expr.single]; rw [SizePack.add_comm']
    rw [hsz] at hv ha ⊢
    obtain ⟨hv1, hv2, hvd, hvs1, hvs2⟩ := accessible_split hv
    obtain ⟨ha1, ha2, had, has1, has2⟩ := accessible_split ha
    have h1 := ih b hwf.1 hl hv1 ha1
    simp only [Expr.bind, bind_adv]
    exact ⟨⟨h1.wb, hv2, ha2, (hvd.mono_left h1.ownV).symm, (had.mono_left h1.ownA).symm⟩,
      Set.union_subset (h1.ownV.trans hvs1) hvs2, Set.union_subset (h1.ownA.trans has1) has2⟩
  | transpose e w ih =>
    intro b hwf hl hv ha
    have hsz : (Expr.transpose e w).bindSize = e.bindSize + ⟨w.size, w.size⟩ := by
      simp only [Expr.bindSize, Expr.single]
    rw [hsz] at hv ha ⊢
    obtain ⟨hv1, hv2, hvd, hvs1, hvs2⟩ := accessible_split hv
    obtain ⟨ha1, ha2, had, has1, has2⟩ := accessible_split ha
    have h1 := ih b hwf.1 hl hv1 ha1
    simp only [Expr.bind, bind_adv]
    exact ⟨⟨h1.wb, hv2, ha2, (hvd.mono_left h1.ownV).symm, (had.mono_left h1.ownA).symm⟩,
      Set.union_subset (h1.ownV.trans hvs1) hvs2, Set.union_subset (h1.ownA.trans has1) has2⟩
  | pow n e w ih =>
    intro b hwf hl hv ha
    by_cases hn : n = 0 ∨ n = 1
    · have hsz : (Expr.pow n e w).bindSize = e.bindSize + ⟨w.size, 0⟩ := by
        simp only [Expr.bindSize, Expr.single]; rw [if_pos hn, SizePack.add_comm']
      rw [hsz] at hv ha ⊢
      obtain ⟨hv1, hv2, hvd, hvs1, hvs2⟩ := accessible_split hv
      obtain ⟨ha1, ha2, had, has1, has2⟩ := accessible_split ha
      have h1 := ih b hwf.1 hl hv1 ha1
      simp only [Expr.bind, bind_adv]
      rw [if_pos hn]
      refine ⟨⟨h1.wb, hv2, (hvd.mono_left h1.ownV).symm, fun h => absurd hn h⟩,
        Set.union_subset (h1.ownV.trans hvs1) hvs2, Set.union_subset (h1.ownA.trans has1) ?_⟩
      simp only [Expr.adjRoot]
      rw [if_pos hn]
      exact Set.empty_subset _
    · have hsz : (Expr.pow n e w).bindSize = e.bindSize + ⟨w.size, w.size⟩ := by
        simp only [Expr.bindSize, Expr.single]; rw [if_neg hn, SizePack.add_comm']
      rw [hsz] at hv ha ⊢
      obtain ⟨hv1, hv2, hvd, hvs1, hvs2⟩ := accessible_split hv
      obtain ⟨ha1, ha2, had, has1, has2⟩ := accessible_split ha
      have h1 := ih b hwf.1 hl hv1 ha1
      simp only [Expr.bind, bind_adv]
      rw [if_neg hn]
      refine ⟨⟨h1.wb, hv2, (hvd.mono_left h1.ownV).symm, fun h => ⟨ha2, (had.mono_left h1.ownA).symm⟩⟩,
        Set.union_subset (h1.ownV.trans hvs1) hvs2, Set.union_subset (h1.ownA.trans has1) ?_⟩
      simp only [Expr.adjRoot]
      rw [if_neg hn]
      exact has2
  | binary op l r w ihl ihr =>
    intro b hwf hl hv ha
    by_cases hn : op.isComparison = true
    · have hsz : (Expr.binary op l r w).bindSize = l.bindSize + r.bindSize + ⟨w.size, 0⟩ := by
        simp only [Expr.bindSize, Expr.single]; rw [if_pos hn, SizePack.add_assoc', SizePack.add_comm']
      rw [hsz] at hv ha ⊢
      obtain ⟨hv1, hv2, hvd, hvs1, hvs2⟩ := accessible_split hv
      obtain ⟨ha1, ha2, had, has1, has2⟩ := accessible_split ha
      obtain ⟨hv3, hv4, hvd2, hvs3, hvs4⟩ := accessible_split hv1
      obtain ⟨ha3, ha4, had2, has3, has4⟩ := accessible_split ha1
      have h1 := ihl b hwf.1 hl.1 hv3 ha3
      have h2 := ihr (b.adv l.bindSize) hwf.2.1 hl.2 hv4 ha4
      have hoV := Set.union_subset (h1.ownV.trans hvs3) (h2.ownV.trans hvs4)
      have hoA := Set.union_subset (h1.ownA.trans has3) (h2.ownA.trans has4)
      simp only [Expr.bind, bind_adv, Pack.adv_adv]
      rw [if_pos hn]
      refine ⟨⟨h1.wb, h2.wb, hvd2.mono h1.ownV h2.ownV, had2.mono h1.ownA h2.ownA, hv2, (hvd.mono_left hoV).symm,
        fun h => by rw [hn] at h; exact absurd h (by simp)⟩,
        Set.union_subset (hoV.trans hvs1) hvs2, Set.union_subset (hoA.trans has1) ?_⟩
      simp only [Expr.adjRoot]
      rw [if_pos hn]
      exact Set.empty_subset _
    · have hsz : (Expr.binary op l r w).bindSize = l.bindSize + r.bindSize + ⟨w.size, w.size⟩ := by
        simp only [Expr.bindSize, Expr.single]; rw [if_neg hn, SizePack.add_assoc', SizePack.add_comm']
      rw [hsz] at hv ha ⊢
      obtain ⟨hv1, hv2, hvd, hvs1, hvs2⟩ := accessible_split hv
      obtain ⟨ha1, ha2, had, has1, has2⟩ := accessible_split ha
      obtain ⟨hv3, hv4, hvd2, hvs3, hvs4⟩ := accessible_split hv1
      obtain ⟨ha3, ha4, had2, has3, has4⟩ := accessible_split ha1
      have h1 := ihl b hwf.1 hl.1 hv3 ha3
      have h2 := ihr (b.adv l.bindSize) hwf.2.1 hl.2 hv4 ha4
      have hoV := Set.union_subset (h1.ownV.trans hvs3) (h2.ownV.trans hvs4)
      have hoA := Set.union_subset (h1.ownA.trans has3) (h2.ownA.trans has4)
      simp only [Expr.bind, bind_adv, Pack.adv_adv]
      rw [if_neg hn]
      refine ⟨⟨h1.wb, h2.wb, hvd2.mono h1.ownV h2.ownV, had2.mono h1.ownA h2.ownA, hv2, (hvd.mono_left hoV).symm,
        fun h => ⟨ha2, (had.mono_left hoA).symm⟩⟩,
        Set.union_subset (hoV.trans hvs1) hvs2, Set.union_subset (hoA.trans has1) ?_⟩
      simp only [Expr.adjRoot]
      rw [if_neg hn]
      exact has2
  | prodElem e w c ih =>
    intro b hwf hl hv ha
    have hsz : (Expr.prodElem e w c).bindSize = e.bindSize + ⟨w.size, e.size⟩ := by
      simp only [Expr.bindSize, Expr.single]
    rw [hsz] at hv ha ⊢
    obtain ⟨hv1, hv2, hvd, hvs1, hvs2⟩ := accessible_split hv
    obtain ⟨ha1, ha2, had, has1, has2⟩ := accessible_split ha
    have h1 := ih b hwf.1 hl hv1 ha1
    have hse : (e.bind b).1.size = e.size := by rw [Expr.size, Expr.shape_of_strip (bind_strip e b), Expr.size]
    simp only [Expr.bind, bind_adv]
    refine ⟨⟨h1.wb, hv2, by rw [hse]; exact ha2, (hvd.mono_left h1.ownV).symm, by rw [hse]; exact (had.mono_left h1.ownA).symm⟩,
      Set.union_subset (h1.ownV.trans hvs1) hvs2, Set.union_subset (h1.ownA.trans has1) ?_⟩
    simp only [Expr.adjRoot]
    rw [hse]
    exact has2
  | dot l r w ihl ihr =>
    intro b hwf hl hv ha
    have hsz : (Expr.dot l r w).bindSize = l.bindSize + r.bindSize + ⟨w.size, w.size⟩ := by
      simp only [Expr.bindSize, Expr.single]; rw [SizePack.add_assoc', SizePack.add_comm']
    rw [hsz] at hv ha ⊢
    obtain ⟨hv1, hv2, hvd, hvs1, hvs2⟩ := accessible_split hv
    obtain ⟨ha1, ha2, had, has1, has2⟩ := accessible_split ha
    obtain ⟨hv3, hv4, hvd2, hvs3, hvs4⟩ := accessible_split hv1
    obtain ⟨ha3, ha4, had2, has3, has4⟩ := accessible_split ha1
    have h1 := ihl b hwf.1 hl.1 hv3 ha3
    have h2 := ihr (b.adv l.bindSize) hwf.2.1 hl.2 hv4 ha4
    have hoV := Set.union_subset (h1.ownV.trans hvs3) (h2.ownV.trans hvs4)
    have hoA := Set.union_subset (h1.ownA.trans has3) (h2.ownA.trans has4)
    simp only [Expr.bind, bind_adv, Pack.adv_adv]
    exact ⟨⟨h1.wb, h2.wb, hvd2.mono h1.ownV h2.ownV, had2.mono h1.ownA h2.ownA, hv2, ha2, (hvd.mono_left hoV).symm,
      (had.mono_left hoA).symm⟩,
      Set.union_subset (hoV.trans hvs1) hvs2, Set.union_subset (hoA.trans has1) has2⟩
  | sumIter es w ih =>
    intro b hwf hl hv ha
    have hsz : (Expr.sumIter es w).bindSize = es.bindSize + ⟨w.size, w.size⟩ := by
      simp only [Expr.bindSize, Expr.single]
    rw [hsz] at hv ha ⊢
    obtain ⟨hv1, hv2, hvd, hvs1, hvs2⟩ := accessible_split hv
    obtain ⟨ha1, ha2, had, has1, has2⟩ := accessible_split ha
    have h1 := list es ih b hwf.1 hl hv1 ha1
    simp only [Expr.bind, binds_adv]
    exact ⟨⟨h1.wb, hv2, ha2, (hvd.mono_left h1.ownV).symm, (had.mono_left h1.ownA).symm⟩,
      Set.union_subset (h1.ownV.trans hvs1) hvs2, Set.union_subset (h1.ownA.trans has1) has2⟩
  | prodIter es w ih =>
    intro b hwf hl hv ha
    have hsz : (Expr.prodIter es w).bindSize = es.bindSize + ⟨w.size, w.size⟩ := by
      simp only [Expr.bindSize, Expr.single]
    rw [hsz] at hv ha ⊢
    obtain ⟨hv1, hv2, hvd, hvs1, hvs2⟩ := accessible_split hv
    obtain ⟨ha1, ha2, had, has1, has2⟩ := accessible_split ha
    have h1 := list es ih b hwf.1 hl hv1 ha1
    simp only [Expr.bind, binds_adv]
    exact ⟨⟨h1.wb, hv2, ha2, (hvd.mono_left h1.ownV).symm, (had.mono_left h1.ownA).symm⟩,
      Set.union_subset (h1.ownV.trans hvs1) hvs2, Set.union_subset (h1.ownA.trans has1) has2⟩
  | reduce op es w ih =>
    intro b hwf hl hv ha
    have hsz : (Expr.reduce op es w).bindSize = es.bindSize + ⟨w.size, 0⟩ := by
      simp only [Expr.bindSize, Expr.single]
    rw [hsz] at hv ha ⊢
    obtain ⟨hv1, hv2, hvd, hvs1, hvs2⟩ := accessible_split hv
    obtain ⟨ha1, ha2, had, has1, has2⟩ := accessible_split ha
    have h1 := list es ih b hwf.1 hl hv1 ha1
    simp only [Expr.bind, binds_adv]
    exact ⟨⟨h1.wb, hv2, (hvd.mono_left h1.ownV).symm⟩,
      Set.union_subset (h1.ownV.trans hvs1) hvs2, Set.union_subset (h1.ownA.trans has1) (Set.empty_subset _)⟩
  | ifElse c x y w ihc ihx ihy =>
    intro b hwf hl hv ha
    have hsz : (Expr.ifElse c x y w).bindSize = c.bindSize + (x.bindSize + y.bindSize) := by
      simp only [Expr.bindSize]; rw [SizePack.add_assoc']
    rw [hsz] at hv ha ⊢
    obtain ⟨hv1, hv2, hvd, hvs1, hvs2⟩ := accessible_split hv
    obtain ⟨ha1, ha2, had, has1, has2⟩ := accessible_split ha
    obtain ⟨hv3, hv4, hvd2, hvs3, hvs4⟩ := accessible_split hv2
    obtain ⟨ha3, ha4, had2, has3, has4⟩ := accessible_split ha2
    have h0 := ihc b hwf.1 hl.1 hv1 ha1
    have h1 := ihx (b.adv c.bindSize) hwf.2.1 hl.2.1 hv3 ha3
    have h2 := ihy ((b.adv c.bindSize).adv x.bindSize) hwf.2.2.1 hl.2.2 hv4 ha4
    have hoV := Set.union_subset (h1.ownV.trans hvs3) (h2.ownV.trans hvs4)
    have hoA := Set.union_subset (h1.ownA.trans has3) (h2.ownA.trans has4)
    simp only [Expr.bind, bind_adv]
    refine ⟨⟨h0.wb, h1.wb, h2.wb, hvd.mono h0.ownV hoV, had.mono h0.ownA hoA, hvd2.mono h1.ownV h2.ownV,
      had2.mono h1.ownA h2.ownA⟩, ?_, ?_⟩
    · exact Set.union_subset (Set.union_subset (h0.ownV.trans hvs1) (hoV.trans hvs2)) (Set.empty_subset _)
    · exact Set.union_subset (Set.union_subset (h0.ownA.trans has1) (hoA.trans has2)) (Set.empty_subset _)
  | eq | opEq | glue | forEach => intro b hwf; exact hwf.elim

end FastAD
