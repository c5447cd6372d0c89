import Verif.Spec.Peak
import Verif.Proof.Pointer

/-!
# Exactly when the pointer arithmetic of `bind_cache` is defined
-/

namespace FastAD

variable {α : Type} {vok aok : ℕ → Bool}

theorem access_zero (ok : ℕ → Bool) (p : Option ℕ) : accessible ok p 0 := by
  cases p with
  | none => rfl
  | some q => exact fun k hk => absurd hk (by omega)

theorem accessible_le {ok : ℕ → Bool} {p : Option ℕ} {m n : ℕ} (h : accessible ok p n) (hm : m ≤ n) : accessible ok p m := by
  cases p with
  | none => have : n = 0 := h; exact show m = 0 by omega
  | some q => exact fun k hk => h k (by omega)

theorem accessible_max {ok : ℕ → Bool} {p : Option ℕ} {m n : ℕ} : accessible ok p (max m n) ↔ accessible ok p m ∧ accessible ok p n := by
  constructor
  · exact fun h => ⟨accessible_le h (le_max_left _ _), accessible_le h (le_max_right _ _)⟩
  · rintro ⟨h1, h2⟩
    rcases max_choice m n with h | h <;> rw [h] <;> assumption

theorem room_sup {b : Pack} {m n : SizePack} : Room vok aok b (m.sup n) ↔ Room vok aok b m ∧ Room vok aok b n := by
  simp only [Room, SizePack.sup, accessible_max]
  tauto

theorem peaks_room {es : Exprs α} (ih : ∀ e ∈ es.toList, ∀ b : Pack, Room vok aok b e.peak → Room vok aok b e.bindSize) :
    ∀ b : Pack, Room vok aok b es.peaks → Room vok aok b es.bindSize := by
  induction es using Exprs.rec (motive_1 := fun _ => True) with
  | nil => intro b h; exact h
  | cons e es _ ihs =>
    intro b h
    simp only [Exprs.peaks, Exprs.bindSize, room_sup, room_split] at h ⊢
    exact ⟨h.2.1, ihs (fun x hx => ih x (by simp [Exprs.toList, hx])) _ h.2.2⟩
  | _ => trivial

theorem peak_room (e : Expr α) : ∀ b : Pack, Room vok aok b e.peak → Room vok aok b e.bindSize := by
  induction e using Expr.induct with
  | var | const | cview => intro b h; exact h
  | unary op e w ih | pow n e w ih | prodElem e w c ih | transpose e w ih | opEq op v e w c ih => intro b h; exact (room_sup.1 h).2
  | binary op l r w ihl ihr | dot l r w ihl ihr => intro b h; exact (room_sup.1 h).2
  | sumIter es w ih | prodIter es w ih | reduce op es w ih => intro b h; exact (room_sup.1 h).2
  | ifElse c x y w ihc ihx ihy =>
    intro b h
    simp only [Expr.peak, Expr.bindSize, room_sup, room_split] at h ⊢
    exact ⟨h.2.1, ihy _ h.2.2⟩
  | eq v e w ih =>
    intro b h
    have := ih b h
    exact ⟨accessible_le this.1 (Nat.sub_le _ _), accessible_le this.2 (Nat.sub_le _ _)⟩
  | glue l r w ihl ihr =>
    intro b h
    simp only [Expr.peak, Expr.bindSize, room_sup, room_split] at h ⊢
    exact ⟨h.2.1, ihr _ h.2.2⟩
  | forEach es w ih => intro b h; exact peaks_room ih b h

theorem bindSize_le_peak (e : Expr α) : e.bindSize.val ≤ e.peak.val ∧ e.bindSize.adj ≤ e.peak.adj := by
  have h := peak_room (vok := fun a => decide (a < e.peak.val)) (aok := fun a => decide (a < e.peak.adj)) e ⟨some 0, some 0⟩
    ⟨fun k hk => by simpa using hk, fun k hk => by simpa using hk⟩
  constructor
  · by_contra hc
    have := h.1 e.peak.val (by omega)
    simp at this
  · by_contra hc
    have := h.2 e.peak.adj (by omega)
    simp at this

theorem ptrSub_eq {ok : ℕ → Bool} {p : Option ℕ} {m n : ℕ} (h : accessible ok p m) (hn : n ≤ m) : ptrSub ok (p.map (· + m)) n = some ((p.map (· + m)).map (· - n)) := by
  cases p with
  | none =>
    have h : m = 0 := h
    exact if_pos (by omega)
  | some q =>
    have h' : ∀ k < n, ok (q + m - n + k) = true := fun k hk => by
      have := h (m - n + k) (by omega)
      rwa [show q + (m - n + k) = q + m - n + k by omega] at this
    simp only [ptrSub, Option.map_some]
    rw [if_pos ⟨by omega, h'⟩]

/-- what is proved by induction -/
def PeakOk (vok aok : ℕ → Bool) (e : Expr α) : Prop :=
  ∀ b : Pack, e.Tidy → ¬e.ValueOnly → (∀ v ∈ e.vars, accessible vok v.val v.size ∧ accessible aok v.adj v.size) → Room vok aok b e.peak →
    e.bindChk vok aok b = some (e.bind b) ∧ (e.HasStorage → Room vok aok ⟨(e.bind b).1.view.val, (e.bind b).1.view.adj⟩ ⟨e.size, e.size⟩)

theorem peakOk_list (es : Exprs α) : (∀ e ∈ es.toList, PeakOk vok aok e) → ∀ b : Pack, es.Tidys → ¬es.ValueOnlys →
    (∀ v ∈ es.varss, accessible vok v.val v.size ∧ accessible aok v.adj v.size) → Room vok aok b es.peaks →
    es.bindChk vok aok b = some (es.bind b) ∧
      (∀ n, es.length ≠ 0 → es.lastHasStorage n → Room vok aok ⟨(es.bind b).1.lastView.val, (es.bind b).1.lastView.adj⟩ ⟨n, n⟩) := by
  induction es using Exprs.rec (motive_1 := fun _ => True) with
  | nil => intro _ b _ _ _ _; exact ⟨rfl, fun n h => absurd rfl h⟩
  | cons e es _ ih =>
    intro hP b hp hv hal hr
    simp only [Exprs.peaks, room_sup, room_split] at hr
    simp only [Exprs.ValueOnlys, not_or] at hv
    have h1 := hP e (by simp [Exprs.toList]) b hp.1 hv.1 (fun v h => hal v (by simp [Exprs.varss, h])) hr.1
    have h2 := ih (fun x hx => hP x (by simp [Exprs.toList, hx])) (e.bind b).2 hp.2 hv.2 (fun v h => hal v (by simp [Exprs.varss, h])) (by rw [bind_adv]; exact hr.2.2)
    refine ⟨by simp [Exprs.bindChk, h1.1, h2.1, Exprs.bind], fun n _ hl => ?_⟩
    cases es with
    | nil =>
      have := h1.2 hl.1
      rw [hl.2] at this
      exact this
    | cons e2 es2 => exact h2.2 n (by simp [Exprs.length]) hl
  | _ => trivial

theorem peakOk (e : Expr α) : PeakOk vok aok e := by
  induction e using Expr.induct with
  | var v => intro b _ _ hal _; exact ⟨rfl, fun _ => hal v (by simp [Expr.vars])⟩
  | const sh c => intro b _ _ _ _; exact ⟨rfl, fun h => h.elim⟩
  | cview sh p => intro b _ _ _ _; exact ⟨rfl, fun h => h.elim⟩
  | unary op e w ih =>
    intro b hp hv hal hk
    obtain ⟨hk, hr⟩ := room_sup.1 hk
    simp only [Expr.bindSize, SizePack.add_comm' (Expr.single _), room_split, ← bind_adv] at hr
    have h := ih b hp hv hal hk
    have h2 : Room vok aok (e.bind b).2 ⟨w.size, w.size⟩ := hr.2
    exact ⟨by simp [Expr.bindChk, h.1, View.bindChk_eq h2, Expr.bind], fun _ => h2⟩
  | binary op l r w ihl ihr =>
    intro b hp hv hal hk
    obtain ⟨hk, hr⟩ := room_sup.1 hk
    simp only [room_sup, room_split, ← bind_adv] at hk
    simp only [Expr.bindSize, SizePack.add_assoc', SizePack.add_comm' (Expr.single _)] at hr
    rw [← SizePack.add_assoc', room_split, room_split, ← bind_adv, ← Pack.adv_adv, ← bind_adv, ← bind_adv] at hr
    simp only [Expr.ValueOnly, not_or] at hv
    have h1 := ihl b hp.1 hv.2.1 (fun v h => hal v (by simp [Expr.vars, h])) hk.1
    have h2 := ihr (l.bind b).2 hp.2 hv.2.2 (fun v h => hal v (by simp [Expr.vars, h])) hk.2.2
    by_cases hc : op.isComparison = true
    · have h0 : w.size = 0 := by by_contra h; exact hv.1 ⟨hc, h⟩
      have h3 : accessible vok (r.bind (l.bind b).2).2.val w.size := by have := hr.2.1; simpa [Expr.single, hc] using this
      refine ⟨by simp [Expr.bindChk, h1.1, h2.1, hc, View.bindValChk_eq h3 h0, Expr.bind], fun _ => ?_⟩
      simp only [Expr.bind, hc, if_true, View.bindVal, Expr.view, Expr.size, Expr.shape]
      exact ⟨h3, h0⟩
    · have h3 : Room vok aok (r.bind (l.bind b).2).2 ⟨w.size, w.size⟩ := by have := hr.2; simpa [Expr.single, hc] using this
      refine ⟨by simp [Expr.bindChk, h1.1, h2.1, hc, View.bindChk_eq h3, Expr.bind], fun _ => ?_⟩
      simp only [Expr.bind, hc]
      exact h3
  | pow n e w ih =>
    intro b hp hv hal hk
    obtain ⟨hk, hr⟩ := room_sup.1 hk
    simp only [Expr.bindSize, SizePack.add_comm' (Expr.single _), room_split, ← bind_adv] at hr
    simp only [Expr.ValueOnly, not_or] at hv
    have h := ih b hp hv.2 hal hk
    by_cases hc : n = 0 ∨ n = 1
    · have h0 : w.size = 0 := by by_contra h; exact hv.1 ⟨hc, h⟩
      have h3 : accessible vok (e.bind b).2.val w.size := by have := hr.2.1; simpa [Expr.single, hc] using this
      refine ⟨by simp [Expr.bindChk, h.1, hc, View.bindValChk_eq h3 h0, Expr.bind], fun _ => ?_⟩
      simp only [Expr.bind, hc, if_true, View.bindVal, Expr.view, Expr.size, Expr.shape]
      exact ⟨h3, h0⟩
    · have h3 : Room vok aok (e.bind b).2 ⟨w.size, w.size⟩ := by have := hr.2; simpa [Expr.single, hc] using this
      refine ⟨by simp [Expr.bindChk, h.1, hc, View.bindChk_eq h3, Expr.bind], fun _ => ?_⟩
      simp only [Expr.bind, hc]
      exact h3
  | prodElem e w c ih =>
    intro b hp hv hal hk
    obtain ⟨hk, hr⟩ := room_sup.1 hk
    simp only [Expr.bindSize, room_split, ← bind_adv] at hr
    simp only [Expr.ValueOnly, not_or, not_not] at hv
    have h := ih b hp hv.2 hal hk
    have h3 : accessible vok (e.bind b).2.val w.size := hr.2.1
    have h4 : accessible aok (e.bind b).2.adj e.size := hr.2.2
    have h5 : w.bindValChk vok aok ⟨(e.bind b).2.val, (e.bind b).2.adj.map (· + e.size)⟩ = some (w.bindVal _) := View.bindValChk_eq h3 hv.1
    refine ⟨by simp [Expr.bindChk, h.1, ptrAdd, if_pos h4, h5, Expr.bind], fun _ => ?_⟩
    exact ⟨h3, hv.1⟩
  | transpose e w ih =>
    intro b hp hv hal hk
    obtain ⟨hk, hr⟩ := room_sup.1 hk
    simp only [Expr.bindSize, room_split, ← bind_adv] at hr
    have h := ih b hp hv hal hk
    have h2 : Room vok aok (e.bind b).2 ⟨w.size, w.size⟩ := hr.2
    exact ⟨by simp [Expr.bindChk, h.1, View.bindChk_eq h2, Expr.bind], fun _ => h2⟩
  | dot l r w ihl ihr =>
    intro b hp hv hal hk
    obtain ⟨hk, hr⟩ := room_sup.1 hk
    simp only [room_sup, room_split, ← bind_adv] at hk
    simp only [Expr.bindSize, SizePack.add_assoc', SizePack.add_comm' (Expr.single _)] at hr
    rw [← SizePack.add_assoc', room_split, room_split, ← bind_adv, ← Pack.adv_adv, ← bind_adv, ← bind_adv] at hr
    simp only [Expr.ValueOnly, not_or] at hv
    have h1 := ihl b hp.1 hv.1 (fun v h => hal v (by simp [Expr.vars, h])) hk.1
    have h2 := ihr (l.bind b).2 hp.2 hv.2 (fun v h => hal v (by simp [Expr.vars, h])) hk.2.2
    have h3 : Room vok aok (r.bind (l.bind b).2).2 ⟨w.size, w.size⟩ := hr.2
    exact ⟨by simp [Expr.bindChk, h1.1, h2.1, View.bindChk_eq h3, Expr.bind], fun _ => h3⟩
  | sumIter es w ih | prodIter es w ih =>
    intro b hp hv hal hk
    obtain ⟨hk, hr⟩ := room_sup.1 hk
    simp only [Expr.bindSize, room_split] at hr
    have h := peakOk_list es ih b hp hv hal hk
    rw [← binds_adv] at hr
    have h2 : Room vok aok (es.bind b).2 ⟨w.size, w.size⟩ := hr.2
    exact ⟨by simp [Expr.bindChk, h.1, View.bindChk_eq h2, Expr.bind], fun _ => h2⟩
  | reduce op es w ih =>
    intro b hp hv hal hk
    obtain ⟨hk, hr⟩ := room_sup.1 hk
    simp only [Expr.bindSize, room_split] at hr
    simp only [Expr.ValueOnly, not_or, not_not] at hv
    have h := peakOk_list es ih b hp hv.2 hal hk
    rw [← binds_adv] at hr
    have h3 : accessible vok (es.bind b).2.val w.size := hr.2.1
    exact ⟨by simp [Expr.bindChk, h.1, View.bindValChk_eq h3 hv.1, Expr.bind], fun _ => ⟨h3, hv.1⟩⟩
  | ifElse c x y w ihc ihx ihy =>
    intro b hp hv hal hk
    simp only [Expr.peak, room_sup, room_split, ← bind_adv, ← Pack.adv_adv] at hk
    simp only [Expr.ValueOnly, not_or] at hv
    have h1 := ihc b hp.1 hv.1 (fun v h => hal v (by simp [Expr.vars, h])) hk.1.1
    have h2 := ihx _ hp.2.1 hv.2.1 (fun v h => hal v (by simp [Expr.vars, h])) hk.1.2.2
    have h3 := ihy _ hp.2.2 hv.2.2 (fun v h => hal v (by simp [Expr.vars, h])) hk.2.2
    exact ⟨by simp [Expr.bindChk, h1.1, h2.1, h3.1, Expr.bind], fun h => h.elim⟩
  | eq v e w ih =>
    intro b hp hv hal hk
    obtain ⟨hw, hs, hp⟩ := hp
    have h := ih b hp hv (fun v h => hal v (by simp [Expr.vars, h])) hk
    have hr := peak_room e b hk
    have hle := single_le e
    have hvar : Room vok aok ⟨v.val, v.adj⟩ ⟨v.size, v.size⟩ := hal v (by simp [Expr.vars])
    have h3 : Room vok aok ⟨v.val, v.adj⟩ ⟨w.size, w.size⟩ := by
      rw [show w.size = v.size by rw [View.size, hw, View.size]]; exact hvar
    have h4 : (View.mk e.shape v.val v.adj).bindChk vok aok ⟨v.val, v.adj⟩ = some ((View.mk e.shape v.val v.adj).bind ⟨v.val, v.adj⟩) :=
      View.bindChk_eq (by rw [show (View.mk e.shape v.val v.adj).size = v.size by simp only [View.size, hs]]; exact hvar)
    have h5 : ptrSub vok (e.bind b).2.val e.single.val = some ((e.bind b).2.val.map (· - e.single.val)) := by
      rw [bind_adv]; exact ptrSub_eq hr.1 hle.1
    have h6 : ptrSub aok (e.bind b).2.adj e.single.adj = some ((e.bind b).2.adj.map (· - e.single.adj)) := by
      rw [bind_adv]; exact ptrSub_eq hr.2 hle.2
    refine ⟨?_, fun _ => h3⟩
    by_cases hc : e.argKind = .const
    · simp [Expr.bindChk, h.1, View.bindChk_eq h3, h5, h6, hc, Expr.bind, View.bind]
    · simp [Expr.bindChk, h.1, View.bindChk_eq h3, h5, h6, h4, hc, Expr.bind, View.bind]
  | opEq op v e w c ih =>
    intro b hp hv hal hk
    obtain ⟨hk, hr⟩ := room_sup.1 hk
    simp only [Expr.bindSize, SizePack.add_comm' (Expr.single _), room_split, ← bind_adv] at hr
    have h := ih b hp.2 hv (fun v h => hal v (by simp [Expr.vars, h])) hk
    have h2 : Room vok aok (e.bind b).2 ⟨c.size, c.size⟩ := hr.2
    have h3 : Room vok aok ⟨v.val, v.adj⟩ ⟨w.size, w.size⟩ := by
      rw [show w.size = v.size by rw [View.size, hp.1, View.size]]; exact hal v (by simp [Expr.vars])
    exact ⟨by simp [Expr.bindChk, h.1, View.bindChk_eq h2, View.bindChk_eq h3, Expr.bind, View.bind], fun _ => h3⟩
  | glue l r w ihl ihr =>
    intro b hp hv hal hk
    simp only [Expr.peak, room_sup, room_split, ← bind_adv] at hk
    simp only [Expr.ValueOnly, not_or] at hv
    have h1 := ihl b hp.1 hv.1 (fun v h => hal v (by simp [Expr.vars, h])) hk.1
    have h2 := ihr _ hp.2.1 hv.2 (fun v h => hal v (by simp [Expr.vars, h])) hk.2.2
    have h3 := h2.2 hp.2.2.1
    rw [hp.2.2.2] at h3
    exact ⟨by simp [Expr.bindChk, h1.1, h2.1, View.bindChk_eq h3, Expr.bind, View.bind], fun _ => h3⟩
  | forEach es w ih =>
    intro b hp hv hal hr
    have h := peakOk_list es ih b hp.1 hv hal hr
    by_cases h0 : es.length = 0
    · refine ⟨?_, fun h => absurd h0 h⟩
      cases es with
      | nil => rfl
      | cons e es => simp [Exprs.length] at h0
    · have h3 := h.2 w.size h0 hp.2
      refine ⟨by simp [Expr.bindChk, h0, h.1, View.bindChk_eq h3, Expr.bind, View.bind], fun _ => ?_⟩
      simp only [Expr.bind, h0, if_false]
      exact h3

/-! ### The other direction -/

theorem ptrAdd_some {ok : ℕ → Bool} {p q : Option ℕ} {n : ℕ} (h : ptrAdd ok p n = some q) : q = p.map (· + n) ∧ accessible ok p n := by
  unfold ptrAdd at h
  split at h
  · cases h; exact ⟨rfl, by assumption⟩
  · cases h

theorem ptrSub_some {ok : ℕ → Bool} {p q : Option ℕ} {n : ℕ} (h : ptrSub ok p n = some q) : q = p.map (· - n) := by
  unfold ptrSub at h
  split at h <;> split at h <;> first | (cases h; rfl) | cases h

theorem View.bindChk_some {w : View} {b : Pack} {p : View × Pack} (h : w.bindChk vok aok b = some p) : p = w.bind b ∧ Room vok aok b ⟨w.size, w.size⟩ := by
  simp only [View.bindChk, Option.bind_eq_bind, Option.bind_eq_some_iff] at h
  obtain ⟨x, h1, y, h2, h3⟩ := h
  obtain ⟨rfl, a1⟩ := ptrAdd_some h1
  obtain ⟨rfl, a2⟩ := ptrAdd_some h2
  cases h3
  exact ⟨rfl, a1, a2⟩

theorem View.bindValChk_some {w : View} {b : Pack} {p : View × Pack} (h : w.bindValChk vok aok b = some p) :
    p = w.bindVal b ∧ accessible vok b.val w.size ∧ w.size = 0 := by
  simp only [View.bindValChk, Option.bind_eq_bind, Option.bind_eq_some_iff, Prod.exists] at h
  obtain ⟨x, y, h1, h2⟩ := h
  obtain ⟨h1, h3⟩ := View.bindChk_some h1
  cases h1; cases h2
  exact ⟨rfl, h3.1, h3.2⟩

/-- if binding is defined, it is the binding of the model, and there was room for all steps -/
def ChkNeed (vok aok : ℕ → Bool) (e : Expr α) : Prop := ∀ (b : Pack) p, e.bindChk vok aok b = some p → p = e.bind b ∧ Room vok aok b e.peak

theorem chkNeed_list (es : Exprs α) (ih : ∀ e ∈ es.toList, ChkNeed vok aok e) : ∀ (b : Pack) p, es.bindChk vok aok b = some p → p = es.bind b ∧ Room vok aok b es.peaks := by
  induction es using Exprs.rec (motive_1 := fun _ => True) with
  | nil =>
    intro b p h
    cases h
    exact ⟨rfl, access_zero _ _, access_zero _ _⟩
  | cons e es _ ihs =>
    intro b p h
    simp only [Exprs.bindChk, Option.bind_eq_bind, Option.bind_eq_some_iff, Prod.exists] at h
    obtain ⟨e', b1, h1, es', b2, h2, h3⟩ := h
    obtain ⟨h1, r1⟩ := ih e (by simp [Exprs.toList]) _ _ h1
    obtain ⟨h2, r2⟩ := ihs (fun x hx => ih x (by simp [Exprs.toList, hx])) _ _ h2
    cases h3
    simp only [Prod.ext_iff] at h1 h2
    obtain ⟨rfl, rfl⟩ := h1
    obtain ⟨rfl, rfl⟩ := h2
    refine ⟨rfl, ?_⟩
    rw [bind_adv] at r2
    simp only [Exprs.peaks, room_sup, room_split]
    exact ⟨r1, peak_room e b r1, r2⟩
  | _ => trivial

theorem room_zero (b : Pack) : Room vok aok b ⟨0, 0⟩ := ⟨access_zero _ _, access_zero _ _⟩

theorem chkNeed (e : Expr α) : ChkNeed vok aok e := by
  induction e using Expr.induct with
  | var | const | cview => intro b p h; cases h; exact ⟨rfl, room_zero b⟩
  | unary op e w ih | transpose e w ih =>
    intro b p h
    simp only [Expr.bindChk, Option.bind_eq_bind, Option.bind_eq_some_iff, Prod.exists] at h
    obtain ⟨e', b1, h1, w', b2, h2, h3⟩ := h
    obtain ⟨h1, r1⟩ := ih _ _ h1
    obtain ⟨h2, r2⟩ := View.bindChk_some h2
    cases h3
    simp only [Prod.ext_iff] at h1 h2
    obtain ⟨rfl, rfl⟩ := h1
    obtain ⟨rfl, rfl⟩ := h2
    refine ⟨rfl, room_sup.2 ⟨r1, ?_⟩⟩
    rw [bind_adv] at r2
    simp only [Expr.bindSize, SizePack.add_comm' (Expr.single _), room_split]
    exact ⟨peak_room e b r1, r2⟩
  | binary op l r w ihl ihr =>
    intro b p h
    simp only [Expr.bindChk, Option.bind_eq_bind, Option.bind_eq_some_iff, Prod.exists] at h
    obtain ⟨l', b1, h1, r', b2, h2, w', b3, h3, h4⟩ := h
    obtain ⟨h1, r1⟩ := ihl _ _ h1
    obtain ⟨h2, r2⟩ := ihr _ _ h2
    simp only [Prod.ext_iff] at h1 h2
    obtain ⟨rfl, rfl⟩ := h1
    obtain ⟨rfl, rfl⟩ := h2
    have key : (w', b3) = (if op.isComparison = true then w.bindVal (r.bind (l.bind b).2).2 else w.bind (r.bind (l.bind b).2).2) ∧
        Room vok aok (r.bind (l.bind b).2).2 (Expr.binary op l r w).single := by
      by_cases hc : op.isComparison = true
      · rw [if_pos hc] at h3 ⊢
        obtain ⟨h3, a3, -⟩ := View.bindValChk_some h3
        exact ⟨h3, by simp only [Expr.single, hc, if_true]; exact ⟨a3, access_zero _ _⟩⟩
      · rw [if_neg hc] at h3 ⊢
        obtain ⟨h3, r3⟩ := View.bindChk_some h3
        exact ⟨h3, by simp only [Expr.single, hc]; exact r3⟩
    obtain ⟨h3, r3⟩ := key
    cases h4
    refine ⟨?_, room_sup.2 ⟨room_sup.2 ⟨r1, ?_⟩, ?_⟩⟩
    · simp only [Expr.bind]
      rw [← h3]
    · rw [bind_adv] at r2
      exact room_split.2 ⟨peak_room l b r1, r2⟩
    · simp only [Expr.bindSize, SizePack.add_assoc', SizePack.add_comm' (Expr.single _)]
      rw [← SizePack.add_assoc', room_split, room_split, ← bind_adv, ← Pack.adv_adv, ← bind_adv, ← bind_adv]
      exact ⟨⟨peak_room l b r1, peak_room r _ r2⟩, r3⟩
  | dot l r w ihl ihr =>
    intro b p h
    simp only [Expr.bindChk, Option.bind_eq_bind, Option.bind_eq_some_iff, Prod.exists] at h
    obtain ⟨l', b1, h1, r', b2, h2, w', b3, h3, h4⟩ := h
    obtain ⟨h1, r1⟩ := ihl _ _ h1
    obtain ⟨h2, r2⟩ := ihr _ _ h2
    obtain ⟨h3, r3⟩ := View.bindChk_some h3
    simp only [Prod.ext_iff] at h1 h2 h3
    obtain ⟨rfl, rfl⟩ := h1
    obtain ⟨rfl, rfl⟩ := h2
    obtain ⟨rfl, rfl⟩ := h3
    cases h4
    refine ⟨rfl, room_sup.2 ⟨room_sup.2 ⟨r1, ?_⟩, ?_⟩⟩
    · rw [bind_adv] at r2
      exact room_split.2 ⟨peak_room l b r1, r2⟩
    · simp only [Expr.bindSize, SizePack.add_assoc', SizePack.add_comm' (Expr.single _)]
      rw [← SizePack.add_assoc', room_split, room_split, ← bind_adv, ← Pack.adv_adv, ← bind_adv, ← bind_adv]
      exact ⟨⟨peak_room l b r1, peak_room r _ r2⟩, r3⟩
  | pow n e w ih =>
    intro b p h
    simp only [Expr.bindChk, Option.bind_eq_bind, Option.bind_eq_some_iff, Prod.exists] at h
    obtain ⟨e', b1, h1, w', b2, h2, h3⟩ := h
    obtain ⟨h1, r1⟩ := ih _ _ h1
    simp only [Prod.ext_iff] at h1
    obtain ⟨rfl, rfl⟩ := h1
    have key : (w', b2) = (if n = 0 ∨ n = 1 then w.bindVal (e.bind b).2 else w.bind (e.bind b).2) ∧ Room vok aok (e.bind b).2 (Expr.pow n e w).single := by
      by_cases hc : n = 0 ∨ n = 1
      · rw [if_pos hc] at h2 ⊢
        obtain ⟨h2, a2, -⟩ := View.bindValChk_some h2
        exact ⟨h2, by simp only [Expr.single, hc, if_true]; exact ⟨a2, access_zero _ _⟩⟩
      · rw [if_neg hc] at h2 ⊢
        obtain ⟨h2, r2⟩ := View.bindChk_some h2
        exact ⟨h2, by simp only [Expr.single, hc]; exact r2⟩
    obtain ⟨h2, r2⟩ := key
    cases h3
    refine ⟨?_, room_sup.2 ⟨r1, ?_⟩⟩
    · simp only [Expr.bind]
      rw [← h2]
    · rw [bind_adv] at r2
      simp only [Expr.bindSize, SizePack.add_comm' (Expr.single _), room_split]
      exact ⟨peak_room e b r1, r2⟩
  | prodElem e w c ih =>
    intro b p h
    simp only [Expr.bindChk, Option.bind_eq_bind, Option.bind_eq_some_iff, Prod.exists] at h
    obtain ⟨e', b1, h1, a, h2, w', b2, h3, h4⟩ := h
    obtain ⟨h1, r1⟩ := ih _ _ h1
    simp only [Prod.ext_iff] at h1
    obtain ⟨rfl, rfl⟩ := h1
    obtain ⟨rfl, a2⟩ := ptrAdd_some h2
    obtain ⟨h3, a3, -⟩ := View.bindValChk_some h3
    cases h4
    refine ⟨?_, room_sup.2 ⟨r1, ?_⟩⟩
    · simp only [Expr.bind]
      rw [← h3]
    · rw [bind_adv] at a2 a3
      simp only [Expr.bindSize, room_split]
      exact ⟨peak_room e b r1, a3, a2⟩
  | sumIter es w ih | prodIter es w ih =>
    intro b p h
    simp only [Expr.bindChk, Option.bind_eq_bind, Option.bind_eq_some_iff, Prod.exists] at h
    obtain ⟨e', b1, h1, w', b2, h2, h3⟩ := h
    obtain ⟨h1, r1⟩ := chkNeed_list es ih _ _ h1
    obtain ⟨h2, r2⟩ := View.bindChk_some h2
    cases h3
    simp only [Prod.ext_iff] at h1 h2
    obtain ⟨rfl, rfl⟩ := h1
    obtain ⟨rfl, rfl⟩ := h2
    refine ⟨rfl, room_sup.2 ⟨r1, ?_⟩⟩
    rw [binds_adv] at r2
    simp only [Expr.bindSize, room_split]
    exact ⟨peaks_room (fun e _ => peak_room e) b r1, r2⟩
  | reduce op es w ih =>
    intro b p h
    simp only [Expr.bindChk, Option.bind_eq_bind, Option.bind_eq_some_iff, Prod.exists] at h
    obtain ⟨e', b1, h1, w', b2, h2, h3⟩ := h
    obtain ⟨h1, r1⟩ := chkNeed_list es ih _ _ h1
    obtain ⟨h2, a2, -⟩ := View.bindValChk_some h2
    cases h3
    simp only [Prod.ext_iff] at h1 h2
    obtain ⟨rfl, rfl⟩ := h1
    obtain ⟨rfl, rfl⟩ := h2
    refine ⟨rfl, room_sup.2 ⟨r1, ?_⟩⟩
    rw [binds_adv] at a2
    simp only [Expr.bindSize, room_split]
    exact ⟨peaks_room (fun e _ => peak_room e) b r1, a2, access_zero _ _⟩
  | ifElse c x y w ihc ihx ihy =>
    intro b p h
    simp only [Expr.bindChk, Option.bind_eq_bind, Option.bind_eq_some_iff, Prod.exists] at h
    obtain ⟨c', b1, h1, x', b2, h2, y', b3, h3, h4⟩ := h
    obtain ⟨h1, r1⟩ := ihc _ _ h1
    obtain ⟨h2, r2⟩ := ihx _ _ h2
    obtain ⟨h3, r3⟩ := ihy _ _ h3
    simp only [Prod.ext_iff] at h1 h2 h3
    obtain ⟨rfl, rfl⟩ := h1
    obtain ⟨rfl, rfl⟩ := h2
    obtain ⟨rfl, rfl⟩ := h3
    cases h4
    refine ⟨rfl, ?_⟩
    simp only [Expr.peak, room_sup, room_split, ← bind_adv, ← Pack.adv_adv]
    exact ⟨⟨r1, peak_room c b r1, r2⟩, ⟨peak_room c b r1, peak_room x _ r2⟩, r3⟩
  | eq v e w ih =>
    intro b p h
    simp only [Expr.bindChk, Option.bind_eq_bind, Option.bind_eq_some_iff, Prod.exists] at h
    obtain ⟨w', b0, h0, e', b1, h1, pv, h2, pa, h3, -, -, -, h4⟩ := h
    obtain ⟨h0, -⟩ := View.bindChk_some h0
    obtain ⟨h1, r1⟩ := ih _ _ h1
    simp only [Prod.ext_iff] at h0 h1
    obtain ⟨rfl, rfl⟩ := h0
    obtain ⟨rfl, rfl⟩ := h1
    obtain rfl := ptrSub_some h2
    obtain rfl := ptrSub_some h3
    cases h4
    exact ⟨rfl, r1⟩
  | opEq op v e w c ih =>
    intro b p h
    simp only [Expr.bindChk, Option.bind_eq_bind, Option.bind_eq_some_iff, Prod.exists] at h
    obtain ⟨w', b0, h0, e', b1, h1, c', b2, h2, h4⟩ := h
    obtain ⟨h0, -⟩ := View.bindChk_some h0
    obtain ⟨h1, r1⟩ := ih _ _ h1
    obtain ⟨h2, r2⟩ := View.bindChk_some h2
    simp only [Prod.ext_iff] at h0 h1 h2
    obtain ⟨rfl, rfl⟩ := h0
    obtain ⟨rfl, rfl⟩ := h1
    obtain ⟨rfl, rfl⟩ := h2
    cases h4
    refine ⟨rfl, room_sup.2 ⟨r1, ?_⟩⟩
    rw [bind_adv] at r2
    simp only [Expr.bindSize, SizePack.add_comm' (Expr.single _), room_split]
    exact ⟨peak_room e b r1, r2⟩
  | glue l r w ihl ihr =>
    intro b p h
    simp only [Expr.bindChk, Option.bind_eq_bind, Option.bind_eq_some_iff, Prod.exists] at h
    obtain ⟨l', b1, h1, r', b2, h2, w', b3, h3, h4⟩ := h
    obtain ⟨h1, r1⟩ := ihl _ _ h1
    obtain ⟨h2, r2⟩ := ihr _ _ h2
    obtain ⟨h3, -⟩ := View.bindChk_some h3
    simp only [Prod.ext_iff] at h1 h2 h3
    obtain ⟨rfl, rfl⟩ := h1
    obtain ⟨rfl, rfl⟩ := h2
    obtain ⟨rfl, rfl⟩ := h3
    cases h4
    refine ⟨rfl, ?_⟩
    rw [bind_adv] at r2
    exact room_sup.2 ⟨r1, room_split.2 ⟨peak_room l b r1, r2⟩⟩
  | forEach es w ih =>
    intro b p h
    simp only [Expr.bindChk] at h
    split at h
    · rename_i h0
      cases h
      cases es with
      | nil => exact ⟨rfl, room_zero b⟩
      | cons e es => simp [Exprs.length] at h0
    · rename_i h0
      simp only [Option.bind_eq_bind, Option.bind_eq_some_iff, Prod.exists] at h
      obtain ⟨es', b1, h1, w', b2, h2, h3⟩ := h
      obtain ⟨h1, r1⟩ := chkNeed_list es ih _ _ h1
      obtain ⟨h2, -⟩ := View.bindChk_some h2
      simp only [Prod.ext_iff] at h1 h2
      obtain ⟨rfl, rfl⟩ := h1
      obtain ⟨rfl, rfl⟩ := h2
      cases h3
      exact ⟨by simp only [Expr.bind, h0, if_false]; rfl, r1⟩

theorem vecData_room {ok : ℕ → Bool} {q n m : ℕ} (h : ∀ k < n, ok (q + k) = true) (hm : m ≤ n) : accessible ok (vecData q n) m := by
  refine accessible_le (n := n) ?_ hm
  unfold vecData
  split
  · assumption
  · exact h

theorem vecData_end {ok : ℕ → Bool} {q n m : ℕ} (h : ok (q + n) = false) (ha : accessible ok (vecData q n) m) : m ≤ n := by
  unfold vecData at ha
  split at ha
  · have : m = 0 := ha; omega
  · by_contra hc
    have := ha n (by omega)
    rw [h] at this
    cases this

end FastAD
