import Verif.Model.Pointer
import Verif.Spec.Pointer
import Verif.Spec.Leaves
import Verif.Proof.Bind

/-!
# Pointer arithmetic of `bind_cache`
-/

namespace FastAD

variable {α : Type} {vok aok : ℕ → Bool}

theorem accessible_add_iff {ok : ℕ → Bool} {p : Option ℕ} {m n : ℕ} :
    accessible ok p (m + n) ↔ accessible ok p m ∧ accessible ok (p.map (· + m)) n := by
  cases p with
  | none => simp only [accessible, Option.map_none]; omega
  | some q =>
    simp only [accessible, Option.map_some]
    constructor
    · exact fun h => ⟨fun k hk => h k (by omega), fun k hk => by rw [Nat.add_assoc]; exact h (m + k) (by omega)⟩
    · rintro ⟨h1, h2⟩ k hk
      by_cases hkm : k < m
      · exact h1 k hkm
      · have := h2 (k - m) (by omega)
        rwa [Nat.add_assoc, Nat.add_sub_cancel' (by omega)] at this

/-- room for `n` cells behind the two pointers -/
def Room (vok aok : ℕ → Bool) (b : Pack) (n : SizePack) : Prop := accessible vok b.val n.val ∧ accessible aok b.adj n.adj

theorem room_split {b : Pack} {m n : SizePack} : Room vok aok b (m + n) ↔ Room vok aok b m ∧ Room vok aok (b.adv m) n := by
  simp only [Room, SizePack.add_val, SizePack.add_adj, accessible_add_iff, Pack.adv]
  tauto

theorem View.bindChk_eq {w : View} {b : Pack} (h : Room vok aok b ⟨w.size, w.size⟩) : w.bindChk vok aok b = some (w.bind b) := by
  simp [View.bindChk, ptrAdd, if_pos h.1, if_pos h.2, View.bind]

theorem View.bindValChk_eq {w : View} {b : Pack} (h : accessible vok b.val w.size) (h0 : w.size = 0) : w.bindValChk vok aok b = some (w.bindVal b) := by
  have h1 : accessible aok none w.size := h0
  simp [View.bindValChk, View.bindChk, ptrAdd, if_pos h, if_pos h1, View.bindVal]

/-- what is proved by induction -/
def ChkOk (vok aok : ℕ → Bool) (e : Expr α) : Prop :=
  ∀ b : Pack, e.Plain → ¬e.ValueOnly → (∀ v ∈ e.vars, accessible vok v.val v.size ∧ accessible aok v.adj v.size) → Room vok aok b e.bindSize →
    e.bindChk vok aok b = some (e.bind b) ∧ (e.HasStorage → Room vok aok ⟨(e.bind b).1.view.val, (e.bind b).1.view.adj⟩ ⟨e.size, e.size⟩)

theorem chkOk_list (es : Exprs α) : (∀ e ∈ es.toList, ChkOk vok aok e) → ∀ b : Pack, es.Plains → ¬es.ValueOnlys →
    (∀ v ∈ es.varss, accessible vok v.val v.size ∧ accessible aok v.adj v.size) → Room vok aok b es.bindSize →
    es.bindChk vok aok b = some (es.bind b) ∧
      (∀ n, es.length ≠ 0 → es.lastHasStorage n → Room vok aok ⟨(es.bind b).1.lastView.val, (es.bind b).1.lastView.adj⟩ ⟨n, n⟩) := by
  induction es using Exprs.rec (motive_1 := fun _ => True) with
  | nil => intro _ b _ _ _ _; exact ⟨rfl, fun n h => absurd rfl h⟩
  | cons e es _ ih =>
    intro hP b hp hv hal hr
    simp only [Exprs.bindSize, room_split] at hr
    simp only [Exprs.ValueOnlys, not_or] at hv
    have h1 := hP e (by simp [Exprs.toList]) b hp.1 hv.1 (fun v h => hal v (by simp [Exprs.varss, h])) hr.1
    have h2 := ih (fun x hx => hP x (by simp [Exprs.toList, hx])) (e.bind b).2 hp.2 hv.2 (fun v h => hal v (by simp [Exprs.varss, h])) (by rw [bind_adv]; exact hr.2)
    refine ⟨by simp [Exprs.bindChk, h1.1, h2.1, Exprs.bind], fun n _ hl => ?_⟩
    cases es with
    | nil =>
      have := h1.2 hl.1
      rw [hl.2] at this
      exact this
    | cons e2 es2 => exact h2.2 n (by simp [Exprs.length]) hl
  | _ => trivial

theorem chkOk (e : Expr α) : ChkOk vok aok e := by
  induction e using Expr.induct with
  | var v => intro b _ _ hal _; exact ⟨rfl, fun _ => hal v (by simp [Expr.vars])⟩
  | const sh c => intro b _ _ _ _; exact ⟨rfl, fun h => h.elim⟩
  | cview sh p => intro b _ _ _ _; exact ⟨rfl, fun h => h.elim⟩
  | unary op e w ih =>
    intro b hp hv hal hr
    simp only [Expr.bindSize, SizePack.add_comm' (Expr.single _), room_split, ← bind_adv] at hr
    have h := ih b hp hv hal hr.1
    have h2 : Room vok aok (e.bind b).2 ⟨w.size, w.size⟩ := hr.2
    exact ⟨by simp [Expr.bindChk, h.1, View.bindChk_eq h2, Expr.bind], fun _ => h2⟩
  | binary op l r w ihl ihr =>
    intro b hp hv hal hr
    simp only [Expr.bindSize, SizePack.add_assoc', SizePack.add_comm' (Expr.single _)] at hr
    rw [← SizePack.add_assoc', room_split, room_split, ← bind_adv, ← Pack.adv_adv, ← bind_adv, ← bind_adv] at hr
    simp only [Expr.ValueOnly, not_or] at hv
    have h1 := ihl b hp.1 hv.2.1 (fun v h => hal v (by simp [Expr.vars, h])) hr.1.1
    have h2 := ihr (l.bind b).2 hp.2 hv.2.2 (fun v h => hal v (by simp [Expr.vars, h])) hr.1.2
    by_cases hc : op.isComparison = true
    · have h0 : w.size = 0 := by by_contra h; exact hv.1 ⟨hc, h⟩
      have h3 : accessible vok (r.bind (l.bind b).2).2.val w.size := by have := hr.2.1; simpa [Expr.single, hc] using this
      refine ⟨by simp [Expr.bindChk, h1.1, h2.1, hc, View.bindValChk_eq h3 h0, Expr.bind], fun _ => ?_⟩
      simp only [Expr.bind, hc, if_true, View.bindVal, Expr.view, Expr.size, Expr.shape]
      exact ⟨h3, h0⟩
    · have h3 : Room vok aok (r.bind (l.bind b).2).2 ⟨w.size, w.size⟩ := by have := hr.2; simpa [Expr.single, hc] using this
      refine ⟨by simp [Expr.bindChk, h1.1, h2.1, hc, View.bindChk_eq h3, Expr.bind], fun _ => ?_⟩
      simp only [Expr.bind, hc]
      exact h3
  | pow n e w ih =>
    intro b hp hv hal hr
    simp only [Expr.bindSize, SizePack.add_comm' (Expr.single _), room_split, ← bind_adv] at hr
    simp only [Expr.ValueOnly, not_or] at hv
    have h := ih b hp hv.2 hal hr.1
    by_cases hc : n = 0 ∨ n = 1
    · have h0 : w.size = 0 := by by_contra h; exact hv.1 ⟨hc, h⟩
      have h3 : accessible vok (e.bind b).2.val w.size := by have := hr.2.1; simpa [Expr.single, hc] using this
      refine ⟨by simp [Expr.bindChk, h.1, hc, View.bindValChk_eq h3 h0, Expr.bind], fun _ => ?_⟩
      simp only [Expr.bind, hc, if_true, View.bindVal, Expr.view, Expr.size, Expr.shape]
      exact ⟨h3, h0⟩
    · have h3 : Room vok aok (e.bind b).2 ⟨w.size, w.size⟩ := by have := hr.2; simpa [Expr.single, hc] using this
      refine ⟨by simp [Expr.bindChk, h.1, hc, View.bindChk_eq h3, Expr.bind], fun _ => ?_⟩
      simp only [Expr.bind, hc]
      exact h3
  | prodElem e w c ih =>
    intro b hp hv hal hr
    simp only [Expr.bindSize, room_split, ← bind_adv] at hr
    simp only [Expr.ValueOnly, not_or, not_not] at hv
    have h := ih b hp hv.2 hal hr.1
    have h3 : accessible vok (e.bind b).2.val w.size := hr.2.1
    have h4 : accessible aok (e.bind b).2.adj e.size := hr.2.2
    have h5 : w.bindValChk vok aok ⟨(e.bind b).2.val, (e.bind b).2.adj.map (· + e.size)⟩ = some (w.bindVal _) := View.bindValChk_eq h3 hv.1
    refine ⟨by simp [Expr.bindChk, h.1, ptrAdd, if_pos h4, h5, Expr.bind], fun _ => ?_⟩
    exact ⟨h3, hv.1⟩
  | transpose e w ih =>
    intro b hp hv hal hr
    simp only [Expr.bindSize, room_split, ← bind_adv] at hr
    have h := ih b hp hv hal hr.1
    have h2 : Room vok aok (e.bind b).2 ⟨w.size, w.size⟩ := hr.2
    exact ⟨by simp [Expr.bindChk, h.1, View.bindChk_eq h2, Expr.bind], fun _ => h2⟩
  | dot l r w ihl ihr =>
    intro b hp hv hal hr
    simp only [Expr.bindSize, SizePack.add_assoc', SizePack.add_comm' (Expr.single _)] at hr
    rw [← SizePack.add_assoc', room_split, room_split, ← bind_adv, ← Pack.adv_adv, ← bind_adv, ← bind_adv] at hr
    simp only [Expr.ValueOnly, not_or] at hv
    have h1 := ihl b hp.1 hv.1 (fun v h => hal v (by simp [Expr.vars, h])) hr.1.1
    have h2 := ihr (l.bind b).2 hp.2 hv.2 (fun v h => hal v (by simp [Expr.vars, h])) hr.1.2
    have h3 : Room vok aok (r.bind (l.bind b).2).2 ⟨w.size, w.size⟩ := hr.2
    exact ⟨by simp [Expr.bindChk, h1.1, h2.1, View.bindChk_eq h3, Expr.bind], fun _ => h3⟩
  | sumIter es w ih | prodIter es w ih =>
    intro b hp hv hal hr
    simp only [Expr.bindSize, room_split] at hr
    have h := chkOk_list es ih b hp hv hal hr.1
    rw [← binds_adv] at hr
    have h2 : Room vok aok (es.bind b).2 ⟨w.size, w.size⟩ := hr.2
    exact ⟨by simp [Expr.bindChk, h.1, View.bindChk_eq h2, Expr.bind], fun _ => h2⟩
  | reduce op es w ih =>
    intro b hp hv hal hr
    simp only [Expr.bindSize, room_split] at hr
    simp only [Expr.ValueOnly, not_or, not_not] at hv
    have h := chkOk_list es ih b hp hv.2 hal hr.1
    rw [← binds_adv] at hr
    have h3 : accessible vok (es.bind b).2.val w.size := hr.2.1
    exact ⟨by simp [Expr.bindChk, h.1, View.bindValChk_eq h3 hv.1, Expr.bind], fun _ => ⟨h3, hv.1⟩⟩
  | ifElse c x y w ihc ihx ihy =>
    intro b hp hv hal hr
    simp only [Expr.bindSize, room_split, ← bind_adv, ← Pack.adv_adv] at hr
    simp only [Expr.ValueOnly, not_or] at hv
    have h1 := ihc b hp.1 hv.1 (fun v h => hal v (by simp [Expr.vars, h])) hr.1.1
    have h2 := ihx _ hp.2.1 hv.2.1 (fun v h => hal v (by simp [Expr.vars, h])) hr.1.2
    have h3 := ihy _ hp.2.2 hv.2.2 (fun v h => hal v (by simp [Expr.vars, h])) hr.2
    exact ⟨by simp [Expr.bindChk, h1.1, h2.1, h3.1, Expr.bind], fun h => h.elim⟩
  | eq v e w ih => intro b hp; exact hp.elim
  | opEq op v e w c ih =>
    intro b hp hv hal hr
    simp only [Expr.bindSize, SizePack.add_comm' (Expr.single _), room_split, ← bind_adv] at hr
    have h := ih b hp.2 hv (fun v h => hal v (by simp [Expr.vars, h])) hr.1
    have h2 : Room vok aok (e.bind b).2 ⟨c.size, c.size⟩ := hr.2
    have h3 : Room vok aok ⟨v.val, v.adj⟩ ⟨w.size, w.size⟩ := by
      rw [show w.size = v.size by rw [View.size, hp.1, View.size]]; exact hal v (by simp [Expr.vars])
    exact ⟨by simp [Expr.bindChk, h.1, View.bindChk_eq h2, View.bindChk_eq h3, Expr.bind, View.bind], fun _ => h3⟩
  | glue l r w ihl ihr =>
    intro b hp hv hal hr
    simp only [Expr.bindSize, room_split, ← bind_adv] at hr
    simp only [Expr.ValueOnly, not_or] at hv
    have h1 := ihl b hp.1 hv.1 (fun v h => hal v (by simp [Expr.vars, h])) hr.1
    have h2 := ihr _ hp.2.1 hv.2 (fun v h => hal v (by simp [Expr.vars, h])) hr.2
    have h3 := h2.2 hp.2.2.1
    rw [hp.2.2.2] at h3
    exact ⟨by simp [Expr.bindChk, h1.1, h2.1, View.bindChk_eq h3, Expr.bind, View.bind], fun _ => h3⟩
  | forEach es w ih =>
    intro b hp hv hal hr
    have h := chkOk_list es ih b hp.1 hv hal hr
    by_cases h0 : es.length = 0
    · refine ⟨?_, fun h => absurd h0 h⟩
      cases es with
      | nil => rfl
      | cons e es => simp [Exprs.length] at h0
    · have h3 := h.2 w.size h0 hp.2
      refine ⟨by simp [Expr.bindChk, h0, h.1, View.bindChk_eq h3, Expr.bind, View.bind], fun _ => ?_⟩
      simp only [Expr.bind, h0, if_false]
      exact h3

theorem View.bindValChk_none {w : View} (h : w.size ≠ 0) (b : Pack) : w.bindValChk vok aok b = none := by
  have h1 : ¬accessible aok none w.size := h
  simp [View.bindValChk, View.bindChk, ptrAdd, if_neg h1]

theorem valueOnly_none (e : Expr α) : e.ValueOnly → ∀ b, e.bindChk vok aok b = none := by
  have list : ∀ es : Exprs α, (∀ e ∈ es.toList, e.ValueOnly → ∀ b, e.bindChk vok aok b = none) → es.ValueOnlys → ∀ b, es.bindChk vok aok b = none := by
    intro es
    induction es using Exprs.rec (motive_1 := fun _ => True) with
    | nil => intro _ h; exact h.elim
    | cons e es _ ih =>
      intro hP h b
      rcases h with h | h
      · simp [Exprs.bindChk, hP e (by simp [Exprs.toList]) h]
      · simp [Exprs.bindChk, ih (fun x hx => hP x (by simp [Exprs.toList, hx])) h]
    | _ => trivial
  induction e using Expr.induct with
  | var v => intro h; exact h.elim
  | const sh c => intro h; exact h.elim
  | cview sh p => intro h; exact h.elim
  | unary op e w ih => intro h b; simp [Expr.bindChk, ih h]
  | binary op l r w ihl ihr =>
    intro h b
    rcases h with h | h | h
    · simp [Expr.bindChk, h.1, View.bindValChk_none h.2]
    · simp [Expr.bindChk, ihl h]
    · simp [Expr.bindChk, ihr h]
  | pow n e w ih =>
    intro h b
    rcases h with h | h
    · simp [Expr.bindChk, h.1, View.bindValChk_none h.2]
    · simp [Expr.bindChk, ih h]
  | prodElem e w c ih =>
    intro h b
    rcases h with h | h
    · simp [Expr.bindChk, View.bindValChk_none h]
    · simp [Expr.bindChk, ih h]
  | transpose e w ih => intro h b; simp [Expr.bindChk, ih h]
  | dot l r w ihl ihr =>
    intro h b
    rcases h with h | h
    · simp [Expr.bindChk, ihl h]
    · simp [Expr.bindChk, ihr h]
  | sumIter es w ih | prodIter es w ih => intro h b; simp [Expr.bindChk, list es ih h]
  | reduce op es w ih =>
    intro h b
    rcases h with h | h
    · simp [Expr.bindChk, View.bindValChk_none h]
    · simp [Expr.bindChk, list es ih h]
  | ifElse c x y w ihc ihx ihy =>
    intro h b
    rcases h with h | h | h
    · simp [Expr.bindChk, ihc h]
    · simp [Expr.bindChk, ihx h]
    · simp [Expr.bindChk, ihy h]
  | eq v e w ih => intro h b; simp [Expr.bindChk, ih h]
  | opEq op v e w c ih => intro h b; simp [Expr.bindChk, ih h]
  | glue l r w ihl ihr =>
    intro h b
    rcases h with h | h
    · simp [Expr.bindChk, ihl h]
    · simp [Expr.bindChk, ihr h]
  | forEach es w ih =>
    intro h b
    have h0 : es.length ≠ 0 := by rintro h0; cases es with
      | nil => exact h.elim
      | cons e es => simp [Exprs.length] at h0
    simp [Expr.bindChk, h0, list es ih h]

end FastAD
