import Verif.Spec.NestedIf
import Verif.Proof.WriteOut

/-!
# The backward pass fails where it reads the value of an `if_else`
-/

namespace FastAD

variable {α : Type}

theorem unstored_bind {e : Expr α} (b : Pack) (h : e.Unstored) : (e.bind b).1.Unstored := by
  cases e <;> first | exact h.elim | exact h

theorem someUnstored_bind (es : Exprs α) : ∀ b : Pack, es.SomeUnstored → (es.bind b).1.SomeUnstored := by
  induction es using Exprs.rec (motive_1 := fun _ => True) with
  | nil => exact fun b h => h
  | cons e es _ ih => exact fun b h => h.imp (unstored_bind b) (ih _)
  | _ => trivial

theorem readsIf_rebind {e : Expr α} (p q : Option ℕ) (h : e.ReadsIf) : (e.rebind p q).ReadsIf := by
  cases e <;> exact h

theorem someReadsIf_bind (es : Exprs α) : (∀ e ∈ es.toList, ∀ b : Pack, e.ReadsIf → (e.bind b).1.ReadsIf) → ∀ b : Pack, es.SomeReadsIf → (es.bind b).1.SomeReadsIf := by
  induction es using Exprs.rec (motive_1 := fun _ => True) with
  | nil => exact fun _ b h => h
  | cons e es _ ih =>
    exact fun hP b h => h.imp (hP e (by simp [Exprs.toList]) b) (ih (fun x hx => hP x (by simp [Exprs.toList, hx])) _)
  | _ => trivial

section
variable [Zero α] [One α] [Add α] [Sub α] [Neg α] [Mul α] [Div α] [NatCast α] [IntCast α]
variable [Fn α] [HasInf α] [LinAlg α]

theorem readsIf_bind (e : Expr α) : ∀ b : Pack, e.ReadsIf → (e.bind b).1.ReadsIf := by
  induction e using Expr.induct with
  | var | const | cview => exact fun b h => h
  | unary op e w ih => intro b h; exact h.imp (fun h => ⟨unstored_bind b h.1, by rw [bind_shape']; exact h.2⟩) (ih b)
  | binary op l r w ihl ihr =>
    intro b h
    exact ⟨h.1, h.2.imp (fun h => ⟨unstored_bind b h.1, by rw [bind_shape']; exact h.2⟩)
      (Or.imp (fun h => ⟨unstored_bind _ h.1, by rw [bind_shape']; exact h.2⟩) (Or.imp (ihl b) (ihr _)))⟩
  | pow n e w ih => intro b h; exact h.imp (fun h => ⟨unstored_bind b h.1, h.2⟩) (ih b)
  | prodElem e w c ih => intro b h; exact h.imp (unstored_bind b) (ih b)
  | transpose e w ih => intro b h; exact ih b h
  | dot l r w ihl ihr => intro b h; exact h.imp (unstored_bind b) (Or.imp (unstored_bind _) (Or.imp (ihl b) (ihr _)))
  | sumIter es w ih => intro b h; exact someReadsIf_bind es ih b h
  | prodIter es w ih => intro b h; exact h.imp (someUnstored_bind es b) (someReadsIf_bind es ih b)
  | reduce op es w ih =>
    intro b h
    exact h.imp (fun h => ⟨h.1, someUnstored_bind es b h.2⟩) (fun h => ⟨h.1, by rw [Exprs.length_bind]; exact h.2.1, someReadsIf_bind es ih b h.2.2⟩)
  | ifElse c x y w ihc ihx ihy => intro b h; exact h.imp (unstored_bind b) (fun h => ⟨ihx _ h.1, ihy _ h.2⟩)
  | eq v e w ih => intro b h; exact readsIf_rebind _ _ (ih b h)
  | opEq op v e w c ih => intro b h; exact h.imp (unstored_bind b) (ih b)
  | glue l r w ihl ihr => intro b h; exact h.imp (ihl b) (ihr _)
  | forEach es w ih => intro b h; exact someReadsIf_bind es ih b h

theorem unstored_read {e : Expr α} (h : e.Unstored) (s : St α) {n : ℕ} (hn : n ≠ 0) : e.getRef.read s n = none := by
  cases e with
  | ifElse c x y w => simp [Expr.getRef, Expr.view, Ref.read, h.1, readCells, accessible, hn]
  | _ => exact h.elim

theorem unstored_size {e : Expr α} (h : e.Unstored) : e.size ≠ 0 := by
  cases e with
  | ifElse c x y w => exact h.2
  | _ => exact h.elim

theorem unstored_readBack {e : Expr α} (h : e.Unstored) {b : Bool} (hb : b = true ∨ e.shape.isScl = true) (s : St α) : e.readBack b s = none := by
  have : (b || e.shape.isScl) = true := by simpa using hb
  rw [Expr.readBack, readIf, if_pos this, unstored_read h s (unstored_size h)]

theorem bevals_none (es : Exprs α) {pre : ℕ → Ref α → Shape → St α → Option (St α × Option (ℕ → α))} {post : St α → ℕ → Ref α → Shape → St α → Option (St α)}
    (hpre : ∀ i r sh s s' o, pre i r sh s = some (s', o) → ∃ g, o = some g) (ih : ∀ e ∈ es.toList, e.ReadsIf → ∀ g (s : St α), e.beval g s = none) (h : es.SomeReadsIf) :
    ∀ i s, es.bevals pre post i s = none := by
  induction es using Exprs.rec (motive_1 := fun _ => True) with
  | nil => exact h.elim
  | cons e es _ ihs =>
    intro i s
    simp only [Exprs.bevals]
    rcases h with h | h
    · cases es.bevals pre post (i + 1) s with
      | none => rfl
      | some s0 =>
        simp only [Option.bind_eq_bind, Option.bind_some]
        cases hp : pre i e.getRef e.shape s0 with
        | none => rfl
        | some p =>
          obtain ⟨s', o⟩ := p
          obtain ⟨g, rfl⟩ := hpre _ _ _ _ _ _ hp
          simp [ih e (by simp [Exprs.toList]) h]
    · rw [ihs (fun x hx => ih x (by simp [Exprs.toList, hx])) h]
      rfl
  | _ => trivial

theorem bevals_pre_none (es : Exprs α) {pre : ℕ → Ref α → Shape → St α → Option (St α × Option (ℕ → α))} {post : St α → ℕ → Ref α → Shape → St α → Option (St α)}
    (hpre : ∀ e : Expr α, e.Unstored → ∀ i s, pre i e.getRef e.shape s = none) (h : es.SomeUnstored) : ∀ i s, es.bevals pre post i s = none := by
  induction es using Exprs.rec (motive_1 := fun _ => True) with
  | nil => exact h.elim
  | cons e es _ ihs =>
    intro i s
    simp only [Exprs.bevals]
    rcases h with h | h
    · cases es.bevals pre post (i + 1) s with
      | none => rfl
      | some s0 => simp [hpre e h]
    · rw [ihs h]
      rfl
  | _ => trivial

theorem readOperands_none {op : RedOp} (ho : op.usesX = true) (s : St α) (es : Exprs α) (h : es.SomeUnstored) : readOperands op s es.getRefs = none := by
  induction es using Exprs.rec (motive_1 := fun _ => True) with
  | nil => exact h.elim
  | cons e es _ ihs =>
    simp only [Exprs.getRefs, readOperands]
    rcases h with h | h
    · rw [readIf, if_pos ho, unstored_read h s (show e.shape.size ≠ 0 from unstored_size h)]
      rfl
    · rw [ihs h]
      simp
  | _ => trivial

theorem readsIf_beval (e : Expr α) : e.ReadsIf → ∀ seed (s : St α), e.beval seed s = none := by
  induction e using Expr.induct with
  | var | const | cview => exact fun h => h.elim
  | unary op e w ih =>
    intro h seed s
    rcases h with h | h
    · simp [Expr.beval, unstored_readBack h.1 h.2]
    · simp [Expr.beval, ih h]
  | binary op l r w ihl ihr =>
    intro h seed s
    obtain ⟨hc, h⟩ := h
    rcases h with h | h | h | h
    · simp [Expr.beval, hc, unstored_readBack h.1 h.2]
    · simp [Expr.beval, hc, unstored_readBack h.1 h.2]
    · simp [Expr.beval, hc, ihl h]
    · simp [Expr.beval, hc, ihr h]
  | pow n e w ih =>
    intro h seed s
    rcases h with h | h
    · simp [Expr.beval, h.2.1, h.2.2, unstored_read h.1 s (unstored_size h.1)]
    · simp only [Expr.beval, ih h]
      split <;> [rfl; (split <;> [rfl; simp])]
  | prodElem e w c ih =>
    intro h seed s
    rcases h with h | h
    · simp [Expr.beval, readIf, unstored_size h, unstored_read h s (unstored_size h)]
    · simp [Expr.beval, ih h]
  | transpose e w ih => intro h seed s; simp [Expr.beval, ih h]
  | dot l r w ihl ihr =>
    intro h seed s
    rcases h with h | h | h | h
    · simp [Expr.beval, unstored_read h s (unstored_size h)]
    · simp [Expr.beval, unstored_read h _ (unstored_size h)]
    · simp [Expr.beval, ihl h]
    · simp [Expr.beval, ihr h]
  | sumIter es w ih =>
    intro h seed s
    have h0 : es.length ≠ 0 := by cases es with
      | nil => exact h.elim
      | cons e es => simp [Exprs.length]
    simp only [Expr.beval, h0, if_false]
    cases s.writeA w.adj w.size seed with
    | none => rfl
    | some s =>
      refine bevals_none es ?_ (fun e he hr g s => ih e he hr g s) h _ _
      intro i r sh s s' o hp
      cases hg : s.readA w.adj w.size with
      | none => simp [hg] at hp
      | some g => simp [hg] at hp; exact ⟨g, hp.2.symm⟩
  | prodIter es w ih =>
    intro h seed s
    have h0 : es.length ≠ 0 := by cases es with
      | nil => rcases h with h | h <;> exact h.elim
      | cons e es => simp [Exprs.length]
    simp only [Expr.beval, h0, if_false]
    cases s.writeA w.adj w.size seed with
    | none => rfl
    | some s =>
      rcases h with h | h
      · refine bevals_pre_none es (fun e he i s => ?_) h _ _
        simp [prodIterPre, unstored_read he s (show e.shape.size ≠ 0 from unstored_size he)]
      · refine bevals_none es ?_ (fun e he hr g s => ih e he hr g s) h _ _
        intro i r sh s s' o hp
        simp only [prodIterPre, Option.bind_eq_bind, Option.bind_eq_some_iff] at hp
        obtain ⟨x, -, g, -, hp⟩ := hp
        split at hp
        · simp only [Option.bind_eq_some_iff] at hp
          obtain ⟨xs, -, t, -, f, -, hp⟩ := hp
          cases hp
          exact ⟨_, rfl⟩
        · simp only [Option.bind_eq_some_iff] at hp
          obtain ⟨f, -, hp⟩ := hp
          cases hp
          exact ⟨_, rfl⟩
  | reduce op es w ih =>
    intro h seed s
    simp only [Expr.beval]
    rcases h with ⟨ho, h⟩ | ⟨rfl, hl, h⟩
    · cases es with
      | nil => exact h.elim
      | cons e es =>
        simp only [Exprs.bevals, readOperands_none ho _ _ h]
        simp
    · cases es with
      | nil => exact h.elim
      | cons e es =>
        cases es with
        | cons e2 es2 => simp [Exprs.length] at hl
        | nil =>
          have h' : e.ReadsIf := h.resolve_right id
          simp [Exprs.bevals, Exprs.getRefs, readOperands, readIf, RedOp.usesX, RedOp.bmap, RedOp.bmap1, ih e (by simp [Exprs.toList]) h']
          intro a b hab
          cases hr : readCells s.val s.vok w.val w.size with
          | none => simp [hr] at hab
          | some f =>
            simp only [hr, Option.bind_some, Option.some.injEq, Prod.mk.injEq] at hab
            rw [← hab.2]
  | ifElse c x y w ihc ihx ihy =>
    intro h seed s
    rcases h with h | h
    · simp [Expr.beval, unstored_read h s one_ne_zero]
    · simp [Expr.beval, ihx h.1, ihy h.2]
  | eq v e w ih => intro h seed s; simp [Expr.beval, ih h]
  | opEq op v e w c ih =>
    intro h seed s
    rcases h with h | h
    · simp [Expr.beval, unstored_read h _ (unstored_size h)]
    · simp [Expr.beval, ih h]
  | glue l r w ihl ihr =>
    intro h seed s
    rcases h with h | h
    · simp [Expr.beval, ihl h]
    · simp [Expr.beval, ihr h]
  | forEach es w ih =>
    intro h seed s
    simp only [Expr.beval]
    refine bevals_none es ?_ (fun e he hr g s => ih e he hr g s) h _ _
    intro i r sh s s' o hp
    cases hp
    exact ⟨_, rfl⟩

end

end FastAD
