import Verif.Spec.Ownership
import Verif.Proof.World
import Verif.Proof.Objects

/-!
# Every allocated cell has exactly one owner
-/

namespace FastAD

variable [HasInf ℝ] [LinAlg ℝ]

theorem WInv.absObj {u s : St ℝ} {A : AWorld ℝ} {w : World ℝ} (h : WInv u A w s) {n : ℕ} {b : BoundObj ℝ} (hb : w.objs n = some b) :
    ∃ o, A.objs n = some o ∧ ObjInv u s w.vars o b := by
  rcases ho : A.objs n with _ | o
  · rw [h.noObj n ho] at hb; cases hb
  · obtain ⟨b', hb', hi⟩ := h.obj n o ho
    obtain rfl := Option.some.inj (hb.symm.trans hb')
    exact ⟨o, rfl, hi⟩

theorem HRel.var_some {α : Type} {ok0 : ℕ → Bool} {cell0 : ℕ → α} {n : ℕ → ℕ} {var : ℕ → Option (Option (ℕ → α))} {view : ℕ → Option (ℕ × List ℕ)} {h : Half α}
    (hr : HRel ok0 cell0 n var view h) {i : ℕ} {t : Store} (ht : h.slots i = some t) : (var i).isSome := by
  rw [← hr.slot i, ht]; rfl

theorem WInv.holdsV {u s : St ℝ} {A : AWorld ℝ} {w : World ℝ} (h : WInv u A w s) (a : ℕ) :
    (w.vars.st.vok a = true ↔ ∃ o, w.HoldsV u a o) ∧ (∀ o o', w.HoldsV u a o → w.HoldsV u a o' → o = o') ∧ ∀ o, w.HoldsV u a o → A.Exists o := by
  have hobj : ∀ {n b}, w.objs n = some b → b.qv ≤ a ∧ a < b.qv + b.src.bindSize.val → s.vok a = true ∧ u.vok a = false := by
    intro n b hb ha
    obtain ⟨o, -, hi⟩ := h.absObj hb
    exact hi.bv a (mem_block.2 ha)
  refine ⟨⟨fun ha => ?_, ?_⟩, ?_, ?_⟩
  · rcases h.rel.v.only a ha with h1 | ⟨i, t, ht, hin⟩
    · rcases h.onlyV a h1 with h2 | ⟨n, b, hb, hm⟩
      · exact ⟨.user, h2⟩
      · exact ⟨.obj n, b, hb, mem_block.1 hm⟩
    · exact ⟨.var i, t, ht, hin⟩
  · rintro ⟨_ | i | n, ho⟩
    · exact (h.rel.v.base a (h.uv a ho).1).1
    · obtain ⟨t, ht, hin⟩ := ho
      exact h.rel.v.slotOk ht hin
    · obtain ⟨b, hb, hin⟩ := ho
      exact (h.rel.v.base a (hobj hb hin).1).1
  · rintro (_ | i | n) (_ | j | m) h1 h2
    · rfl
    · obtain ⟨t, ht, hin⟩ := h2
      exact ((h.rel.v.base a (h.uv a h1).1).2.2 j t ht hin).elim
    · obtain ⟨b, hb, hin⟩ := h2
      have := (hobj hb hin).2
      rw [show u.vok a = true from h1] at this; cases this
    · obtain ⟨t, ht, hin⟩ := h1
      exact ((h.rel.v.base a (h.uv a h2).1).2.2 i t ht hin).elim
    · obtain ⟨t, ht, hin⟩ := h1
      obtain ⟨d, hd, hin'⟩ := h2
      by_contra hne
      exact h.rel.v.disj i j t d (fun hij => hne (hij ▸ rfl)) ht hd a hin hin'
    · obtain ⟨t, ht, hin⟩ := h1
      obtain ⟨b, hb, hin'⟩ := h2
      exact ((h.rel.v.base a (hobj hb hin').1).2.2 i t ht hin).elim
    · obtain ⟨b, hb, hin⟩ := h1
      have := (hobj hb hin).2
      rw [show u.vok a = true from h2] at this; cases this
    · obtain ⟨t, ht, hin⟩ := h2
      obtain ⟨b, hb, hin'⟩ := h1
      exact ((h.rel.v.base a (hobj hb hin').1).2.2 j t ht hin).elim
    · obtain ⟨b, hb, hin⟩ := h1
      obtain ⟨d, hd, hin'⟩ := h2
      by_contra hne
      exact Set.disjoint_left.1 (h.sepV n m b d (fun hij => hne (hij ▸ rfl)) hb hd) (mem_block.2 hin) (mem_block.2 hin')
  · rintro (_ | i | n) ho
    · trivial
    · obtain ⟨t, ht, -⟩ := ho
      have := h.rel.v.var_some ht
      simpa [AVars.vals, AWorld.Exists] using this
    · obtain ⟨b, hb, -⟩ := ho
      obtain ⟨o, ho, -⟩ := h.absObj hb
      exact Option.isSome_iff_exists.2 ⟨o, ho⟩

theorem WInv.holdsA {u s : St ℝ} {A : AWorld ℝ} {w : World ℝ} (h : WInv u A w s) (a : ℕ) :
    (w.vars.st.aok a = true ↔ ∃ o, w.HoldsA u a o) ∧ (∀ o o', w.HoldsA u a o → w.HoldsA u a o' → o = o') ∧ ∀ o, w.HoldsA u a o → A.Exists o := by
  have hobj : ∀ {n b}, w.objs n = some b → b.qa ≤ a ∧ a < b.qa + b.src.bindSize.adj → s.aok a = true ∧ u.aok a = false := by
    intro n b hb ha
    obtain ⟨o, -, hi⟩ := h.absObj hb
    exact hi.ba a (mem_block.2 ha)
  refine ⟨⟨fun ha => ?_, ?_⟩, ?_, ?_⟩
  · rcases h.rel.a.only a ha with h1 | ⟨i, t, ht, hin⟩
    · rcases h.onlyA a h1 with h2 | ⟨n, b, hb, hm⟩
      · exact ⟨.user, h2⟩
      · exact ⟨.obj n, b, hb, mem_block.1 hm⟩
    · exact ⟨.var i, t, ht, hin⟩
  · rintro ⟨_ | i | n, ho⟩
    · exact (h.rel.a.base a (h.ua a ho).1).1
    · obtain ⟨t, ht, hin⟩ := ho
      exact h.rel.a.slotOk ht hin
    · obtain ⟨b, hb, hin⟩ := ho
      exact (h.rel.a.base a (hobj hb hin).1).1
  · rintro (_ | i | n) (_ | j | m) h1 h2
    · rfl
    · obtain ⟨t, ht, hin⟩ := h2
      exact ((h.rel.a.base a (h.ua a h1).1).2.2 j t ht hin).elim
    · obtain ⟨b, hb, hin⟩ := h2
      have := (hobj hb hin).2
      rw [show u.aok a = true from h1] at this; cases this
    · obtain ⟨t, ht, hin⟩ := h1
      exact ((h.rel.a.base a (h.ua a h2).1).2.2 i t ht hin).elim
    · obtain ⟨t, ht, hin⟩ := h1
      obtain ⟨d, hd, hin'⟩ := h2
      by_contra hne
      exact h.rel.a.disj i j t d (fun hij => hne (hij ▸ rfl)) ht hd a hin hin'
    · obtain ⟨t, ht, hin⟩ := h1
      obtain ⟨b, hb, hin'⟩ := h2
      exact ((h.rel.a.base a (hobj hb hin').1).2.2 i t ht hin).elim
    · obtain ⟨b, hb, hin⟩ := h1
      have := (hobj hb hin).2
      rw [show u.aok a = true from h2] at this; cases this
    · obtain ⟨t, ht, hin⟩ := h2
      obtain ⟨b, hb, hin'⟩ := h1
      exact ((h.rel.a.base a (hobj hb hin').1).2.2 j t ht hin).elim
    · obtain ⟨b, hb, hin⟩ := h1
      obtain ⟨d, hd, hin'⟩ := h2
      by_contra hne
      exact Set.disjoint_left.1 (h.sepA n m b d (fun hij => hne (hij ▸ rfl)) hb hd) (mem_block.2 hin) (mem_block.2 hin')
  · rintro (_ | i | n) ho
    · trivial
    · obtain ⟨t, ht, -⟩ := ho
      have := h.rel.a.var_some ht
      simpa [AVars.adjs, AWorld.Exists] using this
    · obtain ⟨b, hb, -⟩ := ho
      obtain ⟨o, ho, -⟩ := h.absObj hb
      exact Option.isSome_iff_exists.2 ⟨o, ho⟩

theorem OInv.exists_obj {s : St ℝ} {u : Sharing ℝ} {w : Objects ℝ} (h : OInv s.vok s.aok s.adj u w) {n : ℕ} {x : ExprObj ℝ} (hx : w.obj n = some x) : (u.objs n).isSome := by
  rcases ho : u.objs n with _ | o
  · rw [h.works.dom n ho] at hx; cases hx
  · rfl

theorem OInv.holdsV {s : St ℝ} {u : Sharing ℝ} {w : Objects ℝ} (h : OInv s.vok s.aok s.adj u w) (a : ℕ) :
    (w.st.vok a = true ↔ ∃ o, w.HoldsV s a o) ∧ (∀ o o', w.HoldsV s a o → w.HoldsV s a o' → o = o') ∧ ∀ o, w.HoldsV s a o → u.Exists o := by
  refine ⟨⟨fun ha => ?_, ?_⟩, ?_, ?_⟩
  · rcases h.regs.onlyV a ha with h1 | ⟨i, t, ht, hin⟩
    · exact ⟨.user, h1⟩
    · exact ⟨.obj i, t, ht, mem_blockV.1 hin⟩
  · rintro ⟨_ | i | n, ho⟩
    · exact h.mine.vok a ho
    · exact ho.elim
    · obtain ⟨b, hb, hin⟩ := ho
      exact (h.regs.regV n b hb a (mem_blockV.2 hin)).1
  · rintro (_ | i | n) (_ | j | m) h1 h2
    · rfl
    · exact h2.elim
    · obtain ⟨b, hb, hin⟩ := h2
      have := (h.regs.regV m b hb a (mem_blockV.2 hin)).2
      rw [show s.vok a = true from h1] at this; cases this
    · exact h1.elim
    · exact h1.elim
    · exact h1.elim
    · obtain ⟨b, hb, hin⟩ := h1
      have := (h.regs.regV n b hb a (mem_blockV.2 hin)).2
      rw [show s.vok a = true from h2] at this; cases this
    · exact h2.elim
    · obtain ⟨b, hb, hin⟩ := h1
      obtain ⟨d, hd, hin'⟩ := h2
      by_contra hne
      exact Set.disjoint_left.1 (h.regs.disjV n m b d (fun hij => hne (hij ▸ rfl)) hb hd) (mem_blockV.2 hin) (mem_blockV.2 hin')
  · rintro (_ | i | n) ho
    · trivial
    · exact ho.elim
    · obtain ⟨b, hb, -⟩ := ho
      exact h.exists_obj hb

theorem OInv.holdsA {s : St ℝ} {u : Sharing ℝ} {w : Objects ℝ} (h : OInv s.vok s.aok s.adj u w) (a : ℕ) :
    (w.st.aok a = true ↔ ∃ o, w.HoldsA s a o) ∧ (∀ o o', w.HoldsA s a o → w.HoldsA s a o' → o = o') ∧ ∀ o, w.HoldsA s a o → u.Exists o := by
  refine ⟨⟨fun ha => ?_, ?_⟩, ?_, ?_⟩
  · rcases h.regs.onlyA a ha with h1 | ⟨i, t, ht, hin⟩
    · exact ⟨.user, h1⟩
    · exact ⟨.obj i, t, ht, mem_blockA.1 hin⟩
  · rintro ⟨_ | i | n, ho⟩
    · exact h.mine.aok a ho
    · exact ho.elim
    · obtain ⟨b, hb, hin⟩ := ho
      exact (h.regs.regA n b hb a (mem_blockA.2 hin)).1
  · rintro (_ | i | n) (_ | j | m) h1 h2
    · rfl
    · exact h2.elim
    · obtain ⟨b, hb, hin⟩ := h2
      have := (h.regs.regA m b hb a (mem_blockA.2 hin)).2
      rw [show s.aok a = true from h1] at this; cases this
    · exact h1.elim
    · exact h1.elim
    · exact h1.elim
    · obtain ⟨b, hb, hin⟩ := h1
      have := (h.regs.regA n b hb a (mem_blockA.2 hin)).2
      rw [show s.aok a = true from h2] at this; cases this
    · exact h2.elim
    · obtain ⟨b, hb, hin⟩ := h1
      obtain ⟨d, hd, hin'⟩ := h2
      by_contra hne
      exact Set.disjoint_left.1 (h.regs.disjA n m b d (fun hij => hne (hij ▸ rfl)) hb hd) (mem_blockA.2 hin) (mem_blockA.2 hin')
  · rintro (_ | i | n) ho
    · trivial
    · exact ho.elim
    · obtain ⟨b, hb, -⟩ := ho
      exact h.exists_obj hb

end FastAD
