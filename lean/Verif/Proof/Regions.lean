import Verif.Spec.Regions
import Verif.Proof.Bind

/-!
# Binding gives every node its own cache region
-/

namespace FastAD

variable {α : Type}

/-- the regions are mutually disjoint and lie inside a block -/
def RegAll (l : List (Set ℕ)) (p : Option ℕ) (n : ℕ) : Prop := l.Pairwise Disjoint ∧ ∀ S ∈ l, S ⊆ region p n

theorem region_sub (p : Option ℕ) (a b : ℕ) : region p a ⊆ region p (a + b) := by
  cases p with
  | none => exact subset_rfl
  | some q => intro x hx; simp only [region, Set.mem_setOf_eq] at hx ⊢; omega

theorem region_sub' (p : Option ℕ) (a b : ℕ) : region (p.map (· + a)) b ⊆ region p (a + b) := by
  cases p with
  | none => exact subset_rfl
  | some q => intro x hx; simp only [region, Option.map_some, Set.mem_setOf_eq] at hx ⊢; omega

theorem region_disj (p : Option ℕ) (a b : ℕ) : Disjoint (region p a) (region (p.map (· + a)) b) := by
  cases p with
  | none => exact Set.disjoint_left.2 fun x hx => hx.elim
  | some q =>
    rw [Set.disjoint_left]
    intro x h1 h2
    simp only [region, Option.map_some, Set.mem_setOf_eq] at h1 h2
    omega

theorem RegAll.nil (p : Option ℕ) (n : ℕ) : RegAll [] p n := ⟨List.Pairwise.nil, by simp⟩

theorem RegAll.one (p : Option ℕ) (n : ℕ) : RegAll [region p n] p n := ⟨List.pairwise_singleton _ _, by simp⟩

theorem RegAll.null (p : Option ℕ) (k n : ℕ) : RegAll [region none k] p n := ⟨List.pairwise_singleton _ _, by simp [region]⟩

theorem RegAll.append {l r : List (Set ℕ)} {p : Option ℕ} {n k : ℕ} (h1 : RegAll l p n) (h2 : RegAll r (p.map (· + n)) k) :
    RegAll (l ++ r) p (n + k) := by
  refine ⟨List.pairwise_append.2 ⟨h1.1, h2.1, fun S hS T hT => (region_disj p n k).mono (h1.2 S hS) (h2.2 T hT)⟩, ?_⟩
  intro S hS
  rcases List.mem_append.1 hS with h | h
  · exact (h1.2 S h).trans (region_sub p n k)
  · exact (h2.2 S h).trans (region_sub' p n k)

/-- regions of a bound expression: those below the root come first, then the root's own -/
structure RegOk (e e' : Expr α) (b : Pack) : Prop where
  innerV : RegAll e'.innerVal b.val (e.bindSize - e.single).val
  rootV : RegAll e'.rootVal (b.val.map (· + (e.bindSize - e.single).val)) e.single.val
  innerA : RegAll e'.innerAdj b.adj (e.bindSize - e.single).adj
  rootA : RegAll e'.rootAdj (b.adj.map (· + (e.bindSize - e.single).adj)) e.single.adj

theorem RegOk.allV {e e' : Expr α} {b : Pack} (h : RegOk e e' b) : RegAll (e'.innerVal ++ e'.rootVal) b.val e.bindSize.val := by
  have := h.innerV.append h.rootV
  have h1 := single_le e
  rwa [SizePack.sub_val, Nat.sub_add_cancel h1.1] at this

theorem RegOk.allA {e e' : Expr α} {b : Pack} (h : RegOk e e' b) : RegAll (e'.innerAdj ++ e'.rootAdj) b.adj e.bindSize.adj := by
  have := h.innerA.append h.rootA
  have h1 := single_le e
  rwa [SizePack.sub_adj, Nat.sub_add_cancel h1.2] at this

theorem Expr.rebind_innerVal (e : Expr α) (v a : Option ℕ) : (e.rebind v a).innerVal = e.innerVal := by
  cases e <;> simp [Expr.rebind, Expr.innerVal]
theorem Expr.rebind_innerAdj (e : Expr α) (v a : Option ℕ) : (e.rebind v a).innerAdj = e.innerAdj := by
  cases e <;> simp [Expr.rebind, Expr.innerAdj]
theorem Expr.rebind_hasScratch (e : Expr α) (v a : Option ℕ) : (e.rebind v a).hasScratch = e.hasScratch := by
  cases e <;> rfl
theorem Expr.bind_hasScratch (e : Expr α) (b : Pack) : (e.bind b).1.hasScratch = e.hasScratch := by
  cases e <;> simp [Expr.bind, Expr.hasScratch]
theorem Expr.kept_nil {e : Expr α} (h : e.hasScratch = false) : e.keptVal = [] ∧ e.keptAdj = [] := by
  cases e <;> simp_all [Expr.hasScratch, Expr.keptVal, Expr.keptAdj]
theorem Expr.bind_size (e : Expr α) (b : Pack) : (e.bind b).1.size = e.size := by
  rw [Expr.size, Expr.shape_of_strip (bind_strip e b), Expr.size]

theorem regions_ok (e : Expr α) : ∀ b : Pack, e.NoScratchEq → RegOk e (e.bind b).1 b := by
  have list : ∀ es : Exprs α, (∀ e ∈ es.toList, ∀ b : Pack, e.NoScratchEq → RegOk e (e.bind b).1 b) →
      ∀ b : Pack, es.NoScratchEqs → RegAll (es.bind b).1.allVals b.val es.bindSize.val ∧ RegAll (es.bind b).1.allAdjs b.adj es.bindSize.adj := by
    intro es
    induction es using Exprs.rec (motive_1 := fun _ => True) with
    | nil => intro _ b _; exact ⟨RegAll.nil _ _, RegAll.nil _ _⟩
    | cons e es _ ih =>
      intro hP b hn
      have h1 := hP e (by simp [Exprs.toList]) b hn.1
      have h2 := ih (fun x hx => hP x (by simp [Exprs.toList, hx])) (b.adv e.bindSize) hn.2
      simp only [Exprs.bind, bind_adv, Exprs.allVals, Exprs.allAdjs, Exprs.bindSize]
      exact ⟨h1.allV.append h2.1, h1.allA.append h2.2⟩
    | _ => trivial
  have cancel : ∀ a b : SizePack, (a + b) - a = b := by
    intro a b; exact SizePack.ext' (by simp [SizePack.sub_val, SizePack.add_val]) (by simp [SizePack.sub_adj, SizePack.add_adj])
  have cancel' : ∀ a b : SizePack, (a + b) - b = a := by
    intro a b; exact SizePack.ext' (by simp [SizePack.sub_val, SizePack.add_val]) (by simp [SizePack.sub_adj, SizePack.add_adj])
  have zero : ∀ a : SizePack, a - ⟨0, 0⟩ = a := by
    intro a; exact SizePack.ext' (by simp [SizePack.sub_val]) (by simp [SizePack.sub_adj])
  induction e using Expr.induct with
  | var | const | cview => intro b _; exact ⟨RegAll.nil _ _, RegAll.nil _ _, RegAll.nil _ _, RegAll.nil _ _⟩
  | unary op e w ih =>
    intro b hn
    have h := ih b hn
    simp only [Expr.bind, bind_adv]
    refine ⟨?_, ?_, ?_, ?_⟩ <;> simp only [Expr.bindSize, cancel]
    · exact h.allV
    · exact RegAll.one _ _
    · exact h.allA
    · exact RegAll.one _ _
  | binary op l r w ihl ihr =>
    intro b hn
    have hl := ihl b hn.1
    have hr := ihr (b.adv l.bindSize) hn.2
    have hsz : (Expr.binary op l r w).bindSize - (Expr.binary op l r w).single = l.bindSize + r.bindSize := by
      simp only [Expr.bindSize, SizePack.add_assoc', cancel]
    simp only [Expr.bind, bind_adv]
    refine ⟨?_, ?_, ?_, ?_⟩ <;> rw [hsz]
    · exact hl.allV.append hr.allV
    · simp only [Expr.single, Pack.adv_adv]
      split <;> exact RegAll.one _ _
    · exact hl.allA.append hr.allA
    · simp only [Expr.single, Pack.adv_adv]
      split
      · exact RegAll.null _ _ _
      · exact RegAll.one _ _
  | pow n e w ih =>
    intro b hn
    have h := ih b hn
    simp only [Expr.bind, bind_adv]
    refine ⟨?_, ?_, ?_, ?_⟩ <;> simp only [Expr.bindSize, cancel]
    · exact h.allV
    · simp only [Expr.single]
      split <;> exact RegAll.one _ _
    · exact h.allA
    · simp only [Expr.single]
      split
      · exact RegAll.null _ _ _
      · exact RegAll.one _ _
  | prodElem e w c ih =>
    intro b hn
    have h := ih b hn
    simp only [Expr.bind, bind_adv]
    refine ⟨?_, ?_, ?_, ?_⟩ <;> simp only [Expr.bindSize, cancel']
    · exact h.allV
    · exact RegAll.one _ _
    · exact h.allA
    · simp only [Expr.rootAdj, Expr.bind_size]
      exact RegAll.one _ _
  | transpose e w ih =>
    intro b hn
    have h := ih b hn
    simp only [Expr.bind, bind_adv]
    refine ⟨?_, ?_, ?_, ?_⟩ <;> simp only [Expr.bindSize, cancel']
    · exact h.allV
    · exact RegAll.one _ _
    · exact h.allA
    · exact RegAll.one _ _
  | dot l r w ihl ihr =>
    intro b hn
    have hl := ihl b hn.1
    have hr := ihr (b.adv l.bindSize) hn.2
    have hsz : (Expr.dot l r w).bindSize - (Expr.dot l r w).single = l.bindSize + r.bindSize := by
      simp only [Expr.bindSize, SizePack.add_assoc', cancel]
    simp only [Expr.bind, bind_adv]
    refine ⟨?_, ?_, ?_, ?_⟩ <;> rw [hsz]
    · exact hl.allV.append hr.allV
    · simp only [Expr.single, Pack.adv_adv]
      exact RegAll.one _ _
    · exact hl.allA.append hr.allA
    · simp only [Expr.single, Pack.adv_adv]
      exact RegAll.one _ _
  | sumIter es w ih | prodIter es w ih =>
    intro b hn
    have h := list es ih b hn
    simp only [Expr.bind, binds_adv]
    refine ⟨?_, ?_, ?_, ?_⟩ <;> simp only [Expr.bindSize, cancel']
    · exact h.1
    · exact RegAll.one _ _
    · exact h.2
    · exact RegAll.one _ _
  | reduce op es w ih =>
    intro b hn
    have h := list es ih b hn
    simp only [Expr.bind, binds_adv]
    refine ⟨?_, ?_, ?_, ?_⟩ <;> simp only [Expr.bindSize, cancel']
    · exact h.1
    · exact RegAll.one _ _
    · exact h.2
    · exact RegAll.null _ _ _
  | ifElse c x y w ihc ihx ihy =>
    intro b hn
    have hc := ihc b hn.1
    have hx := ihx (b.adv c.bindSize) hn.2.1
    have hy := ihy ((b.adv c.bindSize).adv x.bindSize) hn.2.2
    simp only [Expr.bind, bind_adv]
    refine ⟨?_, RegAll.nil _ _, ?_, RegAll.nil _ _⟩ <;>
      simp only [Expr.bindSize, Expr.single, zero, SizePack.add_val, SizePack.add_adj, Nat.add_assoc]
    · exact hc.allV.append (hx.allV.append hy.allV)
    · exact hc.allA.append (hx.allA.append hy.allA)
  | eq v e w ih =>
    intro b hn
    have h := ih b hn.1
    simp only [Expr.bind, bind_adv]
    have hs : ((e.bind b).1.rebind v.val v.adj).hasScratch = false := by
      rw [Expr.rebind_hasScratch, Expr.bind_hasScratch, hn.2]
    refine ⟨?_, RegAll.nil _ _, ?_, RegAll.nil _ _⟩ <;>
      simp only [Expr.bindSize, Expr.single, zero, Expr.innerVal, Expr.innerAdj, (Expr.kept_nil hs).1, (Expr.kept_nil hs).2,
        List.append_nil, Expr.rebind_innerVal, Expr.rebind_innerAdj]
    · exact h.innerV
    · exact h.innerA
  | opEq op v e w c ih =>
    intro b hn
    have h := ih b hn
    simp only [Expr.bind, bind_adv]
    refine ⟨?_, ?_, ?_, ?_⟩ <;> simp only [Expr.bindSize, cancel]
    · exact h.allV
    · exact RegAll.one _ _
    · exact h.allA
    · exact RegAll.one _ _
  | glue l r w ihl ihr =>
    intro b hn
    have hl := ihl b hn.1
    have hr := ihr (b.adv l.bindSize) hn.2
    simp only [Expr.bind, bind_adv]
    refine ⟨?_, RegAll.nil _ _, ?_, RegAll.nil _ _⟩ <;> simp only [Expr.bindSize, Expr.single, zero]
    · exact hl.allV.append hr.allV
    · exact hl.allA.append hr.allA
  | forEach es w ih =>
    intro b hn
    have h := list es ih b hn
    simp only [Expr.bind, binds_adv]
    refine ⟨?_, RegAll.nil _ _, ?_, RegAll.nil _ _⟩ <;> simp only [Expr.bindSize, Expr.single, zero]
    · exact h.1
    · exact h.2

end FastAD
