import Verif.Spec.Var
import Verif.Proof.Basic

/-!
# `Var` implements value semantics
-/

namespace FastAD

variable {α : Type}

theorem put_same {β : Type} {f : ℕ → β} {i : ℕ} {x : β} : put f i x i = x := if_pos rfl

theorem put_ne {β : Type} {f : ℕ → β} {i j : ℕ} {x : β} (h : j ≠ i) : put f i x j = f j := if_neg h

/-- the cells of a storage -/
def Store.In (t : Store) (a : ℕ) : Prop := addr t.p ≤ a ∧ a < addr t.p + t.n

theorem vecData_in {q n a : ℕ} {ptr : Option ℕ} : Store.In ⟨vecData q n, n, ptr⟩ a ↔ q ≤ a ∧ a < q + n := by
  unfold Store.In vecData
  by_cases h : n = 0
  · subst h; simp [addr]
  · simp [h, addr]

theorem accessible_in {ok : ℕ → Bool} {t : Store} (h : accessible ok t.p t.n) {a : ℕ} (ha : t.In a) : ok a = true := by
  obtain ⟨h1, h2⟩ := ha
  cases hp : t.p with
  | none => rw [hp] at h; simp only [accessible] at h; simp [hp, addr, h] at h1 h2
  | some q =>
    rw [hp] at h
    simp only [hp, addr, Option.getD_some] at h1 h2
    have := h (a - q) (by omega)
    rwa [Nat.add_sub_cancel' h1] at this

theorem accessible_of_in {ok : ℕ → Bool} {t : Store} (hn : t.p = none → t.n = 0) (h : ∀ a, t.In a → ok a = true) : accessible ok t.p t.n := by
  cases hp : t.p with
  | none => exact hn hp
  | some q => exact fun k hk => h _ ⟨by simp [hp, addr], by simp [hp, addr, hk]⟩

/-- Half of the state implements abstract contents: `none` for a variable that does not exist, `some none` for one that was moved from. -/
structure HRel (ok0 : ℕ → Bool) (cell0 : ℕ → α) (n : ℕ → ℕ) (var : ℕ → Option (Option (ℕ → α))) (view : ℕ → Option (ℕ × List ℕ)) (h : Half α) : Prop where
  slot : ∀ i, (h.slots i).isSome = (var i).isSome
  own : ∀ i t, h.slots i = some t → accessible h.ok t.p t.n ∧ (t.n = 0 ∨ t.n = n i)
  disj : ∀ i j t d, i ≠ j → h.slots i = some t → h.slots j = some d → ∀ a, t.In a → ¬ d.In a
  live : ∀ i x t, var i = some (some x) → h.slots i = some t → t.ptr = t.p ∧ t.n = n i ∧ ∀ k < t.n, h.cell (addr t.p + k) = x k
  view : ∀ k i l, view k = some (i, l) → ∃ x t off, var i = some (some x) ∧ h.slots i = some t ∧ h.ptrs k = t.p.map (· + off) ∧
    l = List.range' off l.length ∧ off + l.length ≤ n i
  base : ∀ a, ok0 a = true → h.ok a = true ∧ h.cell a = cell0 a ∧ ∀ i t, h.slots i = some t → ¬ t.In a
  only : ∀ a, h.ok a = true → ok0 a = true ∨ ∃ i t, h.slots i = some t ∧ t.In a

variable {ok0 : ℕ → Bool} {cell0 : ℕ → α} {n : ℕ → ℕ} {var : ℕ → Option (Option (ℕ → α))} {view : ℕ → Option (ℕ × List ℕ)} {h : Half α}

theorem HRel.ex (hr : HRel ok0 cell0 n var view h) {i : ℕ} {x : Option (ℕ → α)} (hi : var i = some x) : ∃ t, h.slots i = some t := by
  have := hr.slot i
  rw [hi] at this
  exact Option.isSome_iff_exists.1 (by simpa using this)

theorem HRel.nex (hr : HRel ok0 cell0 n var view h) {i : ℕ} (hi : var i = none) : h.slots i = none := by
  have := hr.slot i
  rw [hi] at this
  simpa using this

theorem fillRange_in {heap : ℕ → α} {q m : ℕ} {f : ℕ → α} {a : ℕ} (h : q ≤ a ∧ a < q + m) : fillRange heap q m f a = f (a - q) := if_pos h

theorem fillRange_out {heap : ℕ → α} {q m : ℕ} {f : ℕ → α} {a : ℕ} (h : ¬ (q ≤ a ∧ a < q + m)) : fillRange heap q m f a = heap a := if_neg h

/-- a new variable -/
theorem HRel.create (hr : HRel ok0 cell0 n var view h) {i m q : ℕ} {f x : ℕ → α} (hi : var i = none) (hq : ∀ k < m, h.ok (q + k) = false)
    (hx : ∀ k < m, f k = x k) : HRel ok0 cell0 (put n i m) (Function.update var i (some (some x))) view (h.create i m q f) := by
  have hfr : ∀ a, h.ok a = true → ¬ (q ≤ a ∧ a < q + m) := by
    rintro a ha ⟨h1, h2⟩
    have := hq (a - q) (by omega)
    rw [Nat.add_sub_cancel' h1, ha] at this
    cases this
  have hs : ∀ j, j ≠ i → (h.create i m q f).slots j = h.slots j := fun j hj => put_ne hj
  have hsi : (h.create i m q f).slots i = some ⟨vecData q m, m, vecData q m⟩ := put_same
  have hok : ∀ a, (h.create i m q f).ok a = (h.ok a || (decide (q ≤ a) && decide (a < q + m))) := fun _ => rfl
  have hcell : (h.create i m q f).cell = fillRange h.cell q m f := rfl
  have hin : ∀ j t, h.slots j = some t → ∀ a, t.In a → ¬ (q ≤ a ∧ a < q + m) := fun j t ht a ha => hfr a (accessible_in (hr.own j t ht).1 ha)
  refine ⟨fun j => ?_, fun j t ht => ?_, fun j k t d hjk ht hd a h1 h2 => ?_, fun j y t hy ht => ?_, fun k j l hv => ?_, fun a ha => ⟨?_, ?_, fun j t ht hin' => ?_⟩, fun a ha => ?_⟩
  · by_cases hj : j = i
    · subst hj; simp [hsi]
    · rw [hs j hj, Function.update_of_ne hj, hr.slot]
  · by_cases hj : j = i
    · subst hj
      rw [hsi] at ht
      cases ht
      refine ⟨accessible_of_in (fun h0 => ?_) fun a ha => ?_, .inr put_same.symm⟩
      · by_contra h1; simp [vecData, h1] at h0
      · rw [hok]; simp [vecData_in.1 ha]
    · rw [hs j hj] at ht
      obtain ⟨h1, h2⟩ := hr.own j t ht
      refine ⟨accessible_of_in (fun h0 => by rw [h0] at h1; exact h1) fun a ha => ?_, by rwa [put_ne hj]⟩
      rw [hok, accessible_in h1 ha]; rfl
  · by_cases hj : j = i
    · subst hj
      rw [hsi] at ht; cases ht
      rw [hs k (Ne.symm hjk)] at hd
      exact hin k d hd a h2 (vecData_in.1 h1)
    · rw [hs j hj] at ht
      by_cases hk : k = i
      · subst hk
        rw [hsi] at hd; cases hd
        exact hin j t ht a h1 (vecData_in.1 h2)
      · rw [hs k hk] at hd
        exact hr.disj j k t d hjk ht hd a h1 h2
  · by_cases hj : j = i
    · subst hj
      rw [hsi] at ht; cases ht
      rw [Function.update_self] at hy
      obtain rfl : x = y := by simpa using hy
      refine ⟨rfl, put_same.symm, fun k hk => ?_⟩
      have hk' : k < m := hk
      have : addr (vecData q m) = q := by simp [vecData, addr, Nat.ne_of_gt (Nat.lt_of_le_of_lt (Nat.zero_le k) hk')]
      show fillRange h.cell q m f (addr (vecData q m) + k) = x k
      rw [this, fillRange_in ⟨by omega, by omega⟩, Nat.add_sub_cancel_left, hx k hk']
    · rw [hs j hj] at ht
      rw [Function.update_of_ne hj] at hy
      obtain ⟨h1, h2, h3⟩ := hr.live j y t hy ht
      refine ⟨h1, by rwa [put_ne hj], fun k hk => ?_⟩
      rw [hcell, fillRange_out (hin j t ht _ ⟨by omega, by omega⟩), h3 k hk]
  · obtain ⟨y, t, off, h1, h2, h3, h4⟩ := hr.view k j l hv
    have hj : j ≠ i := by rintro rfl; rw [hi] at h1; cases h1
    exact ⟨y, t, off, by rwa [Function.update_of_ne hj], by rwa [hs j hj], h3, by rwa [put_ne hj]⟩
  · rw [hok, (hr.base a ha).1]; rfl
  · rw [hcell, fillRange_out (hfr a (hr.base a ha).1), (hr.base a ha).2.1]
  · by_cases hj : j = i
    · subst hj
      rw [hsi] at ht; cases ht
      exact hfr a (hr.base a ha).1 (vecData_in.1 hin')
    · rw [hs j hj] at ht
      exact (hr.base a ha).2.2 j t ht hin'
  · rw [hok, Bool.or_eq_true] at ha
    rcases ha with ha | ha
    · rcases hr.only a ha with h1 | ⟨j, t, h1, h2⟩
      · exact .inl h1
      · have hj : j ≠ i := by rintro rfl; rw [hr.nex hi] at h1; cases h1
        exact .inr ⟨j, t, (hs j hj).trans h1, h2⟩
    · exact .inr ⟨i, _, hsi, vecData_in.2 (by simpa using ha)⟩

/-- writing an element of a variable -/
theorem HRel.write (hr : HRel ok0 cell0 n var view h) {i k : ℕ} {x : ℕ → α} {t : Store} {y : α} (hi : var i = some (some x)) (ht : h.slots i = some t)
    (hk : k < n i) : ∃ h', h.write t.p k y = some h' ∧ HRel ok0 cell0 n (Function.update var i (some (some (Function.update x k y)))) view h' := by
  obtain ⟨hp, hn, hc⟩ := hr.live i x t hi ht
  have hin : t.In (addr t.p + k) := ⟨by omega, by omega⟩
  have hacc := (hr.own i t ht).1
  have hok : h.ok (addr t.p + k) = true := accessible_in hacc hin
  have hnn : t.p.isSome := by
    cases h0 : t.p with
    | none => rw [h0] at hacc; have : t.n = 0 := hacc; omega
    | some q => rfl
  obtain ⟨q, hq⟩ := Option.isSome_iff_exists.1 hnn
  have hA : accessible h.ok (t.p.map (· + k)) 1 := by
    rw [hq]
    intro j hj
    obtain rfl : j = 0 := by omega
    simpa [hq, addr] using hok
  refine ⟨_, if_pos hA, ?_⟩
  have hout : ∀ a, a ≠ addr t.p + k → fillRange h.cell (addr t.p + k) 1 (fun _ => y) a = h.cell a := fun a ha => fillRange_out (by omega)
  refine ⟨fun j => ?_, fun j d hd => hr.own j d hd, fun j l => hr.disj j l, fun j z d hz hd => ?_, fun m j l hv => ?_, fun a ha => ⟨(hr.base a ha).1, ?_, (hr.base a ha).2.2⟩, hr.only⟩
  · by_cases hj : j = i
    · subst hj; simp [ht]
    · rw [Function.update_of_ne hj]; exact hr.slot j
  · by_cases hj : j = i
    · subst hj
      obtain rfl : t = d := by simpa using ht.symm.trans hd
      rw [Function.update_self] at hz
      obtain rfl : Function.update x k y = z := by simpa using hz
      refine ⟨hp, hn, fun m hm => ?_⟩
      by_cases hmk : m = k
      · subst hmk
        rw [Function.update_self]
        show fillRange h.cell (addr t.p + m) 1 (fun _ => y) (addr t.p + m) = y
        rw [fillRange_in ⟨by omega, by omega⟩]
      · rw [Function.update_of_ne hmk, ← hc m hm]
        exact hout _ (by omega)
    · rw [Function.update_of_ne hj] at hz
      obtain ⟨h1, h2, h3⟩ := hr.live j z d hz hd
      refine ⟨h1, h2, fun m hm => ?_⟩
      rw [← h3 m hm]
      refine hout _ fun he => hr.disj i j t d (Ne.symm hj) ht hd _ hin ?_
      rw [← he]
      exact ⟨by omega, by omega⟩
  · obtain ⟨z, d, off, h1, h2, h3⟩ := hr.view m j l hv
    by_cases hj : j = i
    · subst hj
      exact ⟨_, d, off, Function.update_self .., h2, h3⟩
    · exact ⟨z, d, off, by rwa [Function.update_of_ne hj], h2, h3⟩
  · rw [← (hr.base a ha).2.1]
    exact hout a fun he => (hr.base a ha).2.2 i t ht (he ▸ hin)

/-- the end of a variable -/
theorem HRel.destroy (hr : HRel ok0 cell0 n var view h) {i : ℕ} {x : Option (ℕ → α)} (hi : var i = some x) (hv : ∀ k l, view k ≠ some (i, l)) :
    ∃ h', h.destroy i = some h' ∧ HRel ok0 cell0 n (Function.update var i none) view h' := by
  obtain ⟨t, ht⟩ := hr.ex hi
  refine ⟨{ h.without t.p t.n with slots := put h.slots i none }, by unfold Half.destroy Half.free; rw [ht]; simp only [Option.bind_eq_bind, Option.bind_some]; rw [if_pos (hr.own i t ht).1]; rfl, ?_⟩
  have hs : ∀ j d, put h.slots i none j = some d → j ≠ i ∧ h.slots j = some d := by
    intro j d hd
    by_cases hj : j = i
    · subst hj; rw [put_same] at hd; cases hd
    · exact ⟨hj, by rwa [put_ne hj] at hd⟩
  have hok : ∀ a, ¬ t.In a → h.ok a = true → (h.without t.p t.n).ok a = true := by
    intro a ha hb
    have : ¬ (addr t.p ≤ a ∧ a < addr t.p + t.n) := ha
    simp only [Half.without, hb, Bool.true_and, Bool.not_eq_true', Bool.and_eq_false_iff, decide_eq_false_iff_not]
    omega
  refine ⟨fun j => ?_, fun j d hd => ?_, fun j k d e hjk hd he => hr.disj j k d e hjk (hs j d hd).2 (hs k e he).2, fun j y d hy hd => ?_, fun k j l hk => ?_,
    fun a ha => ⟨hok a ((hr.base a ha).2.2 i t ht) (hr.base a ha).1, (hr.base a ha).2.1, fun j d hd => (hr.base a ha).2.2 j d (hs j d hd).2⟩, fun a ha => ?_⟩
  · show (put h.slots i none j).isSome = _
    by_cases hj : j = i
    · subst hj; simp [put_same]
    · rw [put_ne hj, Function.update_of_ne hj]; exact hr.slot j
  · obtain ⟨hj, hd'⟩ := hs j d hd
    obtain ⟨h1, h2⟩ := hr.own j d hd'
    exact ⟨accessible_of_in (fun h0 => by rw [h0] at h1; exact h1) fun a ha => hok a (hr.disj j i d t hj hd' ht a ha) (accessible_in h1 ha), h2⟩
  · obtain ⟨hj, hd'⟩ := hs j d hd
    rw [Function.update_of_ne hj] at hy
    exact hr.live j y d hy hd'
  · obtain ⟨y, d, off, h1, h2, h3⟩ := hr.view k j l hk
    have hj : j ≠ i := fun he => hv k l (he ▸ hk)
    exact ⟨y, d, off, by rwa [Function.update_of_ne hj], show put h.slots i none j = _ by rwa [put_ne hj], h3⟩
  · simp only [Half.without, Bool.and_eq_true, Bool.not_eq_true', Bool.and_eq_false_iff, decide_eq_false_iff_not] at ha
    rcases hr.only a ha.1 with h1 | ⟨j, d, h1, h2⟩
    · exact .inl h1
    · have hj : j ≠ i := by
        rintro rfl
        obtain rfl : t = d := by simpa using ht.symm.trans h1
        have := h2.1; have := h2.2
        omega
      exact .inr ⟨j, d, (put_ne hj).trans h1, h2⟩

/-- a new view -/
theorem HRel.point (hr : HRel ok0 cell0 n var view h) {k i off : ℕ} {l : List ℕ} {x : ℕ → α} {t : Store} (hi : var i = some (some x)) (ht : h.slots i = some t)
    (hl : l = List.range' off l.length) (hb : off + l.length ≤ n i) {p : Option ℕ} {o : ℕ} (hp : p.map (· + o) = t.p.map (· + off)) :
    HRel ok0 cell0 n var (Function.update view k (some (i, l))) (h.point k p o) := by
  refine ⟨hr.slot, hr.own, hr.disj, hr.live, fun m j l' hm => ?_, hr.base, hr.only⟩
  by_cases hmk : m = k
  · subst hmk
    rw [Function.update_self] at hm
    cases hm
    refine ⟨x, t, off, hi, ht, ?_, hl, hb⟩
    rw [← hp]; exact put_same
  · rw [Function.update_of_ne hmk] at hm
    obtain ⟨y, d, o', h1, h2, h3, h4⟩ := hr.view m j l' hm
    exact ⟨y, d, o', h1, h2, by rw [← h3]; exact put_ne hmk, h4⟩

/-- forgetting views -/
theorem HRel.mono (hr : HRel ok0 cell0 n var view h) {view' : ℕ → Option (ℕ × List ℕ)} (hv : ∀ k p, view' k = some p → view k = some p) :
    HRel ok0 cell0 n var view' h :=
  ⟨hr.slot, hr.own, hr.disj, hr.live, fun k i l hk => hr.view k i l (hv k _ hk), hr.base, hr.only⟩

/-- of the views, those of `j` became views of `i`, those of `i` are forgotten -/
def Follows (view view' : ℕ → Option (ℕ × List ℕ)) (i j : ℕ) : Prop :=
  ∀ k l e, view' k = some (l, e) → (l ≠ i ∧ l ≠ j ∧ view k = some (l, e)) ∨ (l = i ∧ view k = some (j, e))

/-- Exchange of storage between two variables: `i` gets (and shows) the storage of `j`, `j` keeps an unusable view and the old storage of `i` or none.  Covers move construction
(with `e` empty, where `i` did not exist) and move assignment. -/
theorem HRel.take (hr : HRel ok0 cell0 n var view h) {i j : ℕ} {x : ℕ → α} {t : Store} {p : Option ℕ} {m : ℕ} {ptr : Option ℕ} (hij : i ≠ j) (hj : var j = some (some x))
    (ht : h.slots j = some t) {view' : ℕ → Option (ℕ × List ℕ)} (hv' : Follows view view' i j)
    (hacc : accessible h.ok p m) (hm : m = 0 ∨ ∃ d, h.slots i = some d ∧ d.p = p ∧ d.n = m) (hn : m = 0 ∨ m = n j)
    (hold : ∀ d a, h.slots i = some d → d.In a → Store.In ⟨p, m, ptr⟩ a) :
    HRel ok0 cell0 (put n i (n j)) (Function.update (Function.update var j (some none)) i (some (some x))) view'
      { h with slots := put (put h.slots j (some ⟨p, m, ptr⟩)) i (some ⟨t.p, t.n, t.p⟩) } := by
  have hsi : put (put h.slots j (some ⟨p, m, ptr⟩)) i (some ⟨t.p, t.n, t.p⟩) i = some ⟨t.p, t.n, t.p⟩ := put_same
  have hsj : put (put h.slots j (some ⟨p, m, ptr⟩)) i (some ⟨t.p, t.n, t.p⟩) j = some ⟨p, m, ptr⟩ := by rw [put_ne (Ne.symm hij), put_same]
  have hs : ∀ k, k ≠ i → k ≠ j → put (put h.slots j (some ⟨p, m, ptr⟩)) i (some ⟨t.p, t.n, t.p⟩) k = h.slots k := fun k h1 h2 => by rw [put_ne h1, put_ne h2]
  have hti : ∀ a, Store.In ⟨t.p, t.n, t.p⟩ a ↔ t.In a := fun a => Iff.rfl
  -- cells of the storage of `j` afterwards belonged to `i`
  have hpi : ∀ a, Store.In ⟨p, m, ptr⟩ a → ∃ d, h.slots i = some d ∧ d.In a := by
    rintro a ⟨h1, h2⟩
    rcases hm with h0 | ⟨d, hd, h3, h4⟩
    · simp only [h0] at h1 h2; omega
    · exact ⟨d, hd, by rw [h3]; exact h1, by rw [h3, h4]; exact h2⟩
  obtain ⟨hlp, hln, hlc⟩ := hr.live j x t hj ht
  refine ⟨fun k => ?_, fun k d hd => ?_, ?_, fun k y d hy hd => ?_, fun k l e hv => ?_, fun a ha => ⟨(hr.base a ha).1, (hr.base a ha).2.1, fun k d hd hin => ?_⟩, fun a ha => ?_⟩
  · by_cases h1 : k = i
    · subst h1; simp [put_same]
    · by_cases h2 : k = j
      · subst h2; simp [hsj, Function.update_of_ne h1]
      · show Option.isSome (put (put h.slots j _) i _ k) = _
        rw [hs k h1 h2, Function.update_of_ne h1, Function.update_of_ne h2]; exact hr.slot k
  · by_cases h1 : k = i
    · subst h1
      have hd := hsi.symm.trans hd
      cases hd
      exact ⟨(hr.own j t ht).1, .inr (by rw [put_same]; exact hln)⟩
    · rw [put_ne h1]
      by_cases h2 : k = j
      · subst h2
        have hd := hsj.symm.trans hd
        cases hd
        exact ⟨hacc, hn⟩
      · exact hr.own k d ((hs k h1 h2).symm.trans hd)
  · -- disjointness
    have main : ∀ k l d e, k ≠ l → k ≠ i → put (put h.slots j (some ⟨p, m, ptr⟩)) i (some ⟨t.p, t.n, t.p⟩) k = some d →
        put (put h.slots j (some ⟨p, m, ptr⟩)) i (some ⟨t.p, t.n, t.p⟩) l = some e → l ≠ j → ∀ a, d.In a → ¬ e.In a := by
      intro k l d e hkl h1 hd he h4 a hin hin'
      by_cases h2 : k = j
      · subst h2
        have hd := hsj.symm.trans hd
        cases hd
        obtain ⟨d', hd', hin''⟩ := hpi a hin
        by_cases h3 : l = i
        · subst h3
          have he := hsi.symm.trans he
          cases he
          exact hr.disj l k d' t hij hd' ht a hin'' hin'
        · exact hr.disj i l d' e (Ne.symm h3) hd' ((hs l h3 h4).symm.trans he) a hin'' hin'
      · have hd2 := (hs k h1 h2).symm.trans hd
        by_cases h3 : l = i
        · subst h3
          have he := hsi.symm.trans he
          cases he
          exact hr.disj k j d t h2 hd2 ht a hin hin'
        · exact hr.disj k l d e hkl hd2 ((hs l h3 h4).symm.trans he) a hin hin'
    intro k l d e hkl hd he a hin hin'
    by_cases h1 : k = i
    · by_cases h2 : l = j
      · exact main l k e d (Ne.symm hkl) (fun h => hkl (h1.trans h.symm)) he hd (fun h => hij (h1.symm.trans h)) a hin' hin
      · exact main l k e d (Ne.symm hkl) (fun h => hkl (h1.trans h.symm)) he hd (fun h => hij (h1.symm.trans h)) a hin' hin
    · by_cases h2 : l = j
      · by_cases h3 : l = i
        · exact hij (h3.symm.trans h2)
        · exact main l k e d (Ne.symm hkl) h3 he hd (fun h => hkl (h.trans h2.symm)) a hin' hin
      · exact main k l d e hkl h1 hd he h2 a hin hin'
  · by_cases h1 : k = i
    · subst h1
      have hd := hsi.symm.trans hd
      cases hd
      rw [Function.update_self] at hy
      obtain rfl : x = y := by simpa using hy
      exact ⟨rfl, by rw [put_same]; exact hln, hlc⟩
    · rw [Function.update_of_ne h1] at hy
      by_cases h2 : k = j
      · subst h2; rw [Function.update_self] at hy; cases hy
      · rw [Function.update_of_ne h2] at hy
        rw [put_ne h1]
        exact hr.live k y d hy ((hs k h1 h2).symm.trans hd)
  · rcases hv' k l e hv with ⟨h1, h2, hv⟩ | ⟨rfl, hv⟩
    swap
    · obtain ⟨y, d, off, g1, g2, g3, g4⟩ := hr.view k j e hv
      obtain rfl : t = d := by simpa using ht.symm.trans g2
      exact ⟨x, _, off, Function.update_self .., hsi, g3, by rwa [put_same]⟩
    obtain ⟨y, d, off, g1, g2, g3, g4⟩ := hr.view k l e hv
    exact ⟨y, d, off, by rwa [Function.update_of_ne h1, Function.update_of_ne h2], (hs l h1 h2).trans g2, g3, by rwa [put_ne h1]⟩
  · by_cases h1 : k = i
    · subst h1
      have hd := hsi.symm.trans hd
      cases hd
      exact (hr.base a ha).2.2 j t ht hin
    · by_cases h2 : k = j
      · subst h2
        have hd := hsj.symm.trans hd
        cases hd
        obtain ⟨d', hd', hin''⟩ := hpi a hin
        exact (hr.base a ha).2.2 i d' hd' hin''
      · exact (hr.base a ha).2.2 k d ((hs k h1 h2).symm.trans hd) hin
  · rcases hr.only a ha with h1 | ⟨k, d, h1, h2⟩
    · exact .inl h1
    · by_cases h3 : k = i
      · subst h3
        exact .inr ⟨j, _, hsj, hold d a h1 h2⟩
      · by_cases h4 : k = j
        · subst h4
          obtain rfl : t = d := by simpa using ht.symm.trans h1
          exact .inr ⟨i, _, hsi, h2⟩
        · exact .inr ⟨k, d, (hs k h3 h4).trans h1, h2⟩

variable [Zero α]

theorem HRel.read (hr : HRel ok0 cell0 n var view h) {j : ℕ} {x : ℕ → α} {t : Store} (hj : var j = some (some x)) (ht : h.slots j = some t) :
    readCells h.cell h.ok t.p t.n = some (trunc (n j) x) := by
  obtain ⟨-, hn, hc⟩ := hr.live j x t hj ht
  unfold readCells
  rw [if_pos (hr.own j t ht).1]
  congr 1
  funext k
  unfold trunc
  by_cases hk : k < t.n
  · rw [if_pos hk, if_pos (hn ▸ hk)]; exact hc k hk
  · rw [if_neg hk, if_neg (hn ▸ hk)]

theorem HRel.copy (hr : HRel ok0 cell0 n var view h) {i j q : ℕ} {x : ℕ → α} (hi : var i = none) (hj : var j = some (some x))
    (hq : ∀ k < n j, h.ok (q + k) = false) :
    ∃ h', h.copy i j q = some h' ∧ HRel ok0 cell0 (put n i (n j)) (Function.update var i (some (some x))) view h' := by
  obtain ⟨t, ht⟩ := hr.ex hj
  have hn := (hr.live j x t hj ht).2.1
  refine ⟨h.create i t.n q (trunc (n j) x), by unfold Half.copy; rw [ht, Option.bind_eq_bind, Option.bind_some, hr.read hj ht]; rfl, ?_⟩
  rw [← hn] at hq ⊢
  exact hr.create hi hq fun k hk => if_pos hk

theorem HRel.assign (hr : HRel ok0 cell0 n var view h) {i j q : ℕ} {x : ℕ → α} {u : Option (ℕ → α)} (hij : i ≠ j) (hi : var i = some u) (hj : var j = some (some x))
    (hnn : n i = n j) (hq : ∀ k < n j, h.ok (q + k) = false) :
    ∃ h', h.assign i j q = some h' ∧ HRel ok0 cell0 n (Function.update var i (some (some x))) view h' := by
  obtain ⟨t, ht⟩ := hr.ex hj
  obtain ⟨d, hd⟩ := hr.ex hi
  obtain ⟨hlp, hln, hlc⟩ := hr.live j x t hj ht
  obtain ⟨hacc, hdn⟩ := hr.own i d hd
  by_cases heq : d.n = t.n
  · refine ⟨{ h with cell := fillRange h.cell (addr d.p) d.n (trunc (n j) x), slots := put h.slots i (some ⟨d.p, d.n, d.p⟩) }, ?_, ?_⟩
    · unfold Half.assign
      rw [ht, hd]
      simp only [Option.bind_eq_bind, Option.bind_some, hr.read hj ht]
      rw [if_pos heq, if_pos hacc]
    have hout : ∀ a, ¬ d.In a → fillRange h.cell (addr d.p) d.n (trunc (n j) x) a = h.cell a := fun a ha => fillRange_out ha
    have hsi : put h.slots i (some ⟨d.p, d.n, d.p⟩) i = some ⟨d.p, d.n, d.p⟩ := put_same
    have hs : ∀ k e, put h.slots i (some ⟨d.p, d.n, d.p⟩) k = some e → ∃ e', h.slots k = some e' ∧ e.p = e'.p ∧ e.n = e'.n ∧ (k ≠ i → e = e') := by
      intro k e he
      by_cases hk : k = i
      · subst hk
        have he := hsi.symm.trans he
        cases he
        exact ⟨d, hd, rfl, rfl, fun h => absurd rfl h⟩
      · rw [put_ne hk] at he
        exact ⟨e, he, rfl, rfl, fun _ => rfl⟩
    have hin : ∀ {e e' : Store} {a : ℕ}, e.p = e'.p → e.n = e'.n → e.In a → e'.In a := by
      intro e e' a h1 h2 h3
      unfold Store.In at h3 ⊢
      rwa [h1, h2] at h3
    refine ⟨fun k => ?_, fun k e he => ?_, fun k l e f hkl he hf a h1 h2 => ?_, fun k y e hy he => ?_, fun k l e hv => ?_, fun a ha => ⟨(hr.base a ha).1, ?_, fun k e he h1 => ?_⟩, fun a ha => ?_⟩
    · by_cases hk : k = i
      · subst hk; simp [put_same]
      · show Option.isSome (put h.slots i _ k) = _
        rw [put_ne hk, Function.update_of_ne hk]; exact hr.slot k
    · obtain ⟨e', h1, h2, h3, -⟩ := hs k e he
      rw [h2, h3]; exact hr.own k e' h1
    · obtain ⟨e', h3, h4, h5, -⟩ := hs k e he
      obtain ⟨f', h6, h7, h8, -⟩ := hs l f hf
      exact hr.disj k l e' f' hkl h3 h6 a (hin h4 h5 h1) (hin h7 h8 h2)
    · by_cases hk : k = i
      · subst hk
        have he := hsi.symm.trans he
        cases he
        rw [Function.update_self] at hy
        obtain rfl : x = y := by simpa using hy
        refine ⟨rfl, by rw [heq, hln, hnn], fun m hm => ?_⟩
        have hm' : m < d.n := hm
        show fillRange h.cell (addr d.p) d.n (trunc (n j) x) (addr d.p + m) = x m
        rw [fillRange_in ⟨by omega, by omega⟩, Nat.add_sub_cancel_left]
        exact if_pos (by omega)
      · obtain ⟨e', h1, -, -, h2⟩ := hs k e he
        obtain rfl := h2 hk
        rw [Function.update_of_ne hk] at hy
        obtain ⟨g1, g2, g3⟩ := hr.live k y e hy h1
        exact ⟨g1, g2, fun m hm => (hout _ (hr.disj k i e d hk h1 hd _ ⟨by omega, by omega⟩)).trans (g3 m hm)⟩
    · obtain ⟨y, e', off, g1, g2, g3, g4⟩ := hr.view k l e hv
      by_cases hl : l = i
      · subst hl
        obtain rfl : d = e' := by simpa using hd.symm.trans g2
        exact ⟨x, _, off, Function.update_self .., put_same, g3, g4⟩
      · exact ⟨y, e', off, by rwa [Function.update_of_ne hl], (put_ne hl).trans g2, g3, g4⟩
    · rw [← (hr.base a ha).2.1]
      exact hout a ((hr.base a ha).2.2 i d hd)
    · obtain ⟨e', h3, h4, h5, -⟩ := hs k e he
      exact (hr.base a ha).2.2 k e' h3 (hin h4 h5 h1)
    · rcases hr.only a ha with h1 | ⟨k, e, h1, h2⟩
      · exact .inl h1
      · by_cases hk : k = i
        · subst hk
          obtain rfl : d = e := by simpa using hd.symm.trans h1
          exact .inr ⟨k, _, hsi, h2⟩
        · exact .inr ⟨k, e, (put_ne hk).trans h1, h2⟩
  · have hd0 : d.n = 0 := by rcases hdn with h0 | h0 <;> omega
    have hnot : ∀ y, var i ≠ some (some y) := fun y hy => heq (by rw [(hr.live i y d hy hd).2.1, hln, hnn])
    have hfree : ∀ a, (h.without d.p d.n).ok a = h.ok a := by
      intro a
      have : ¬ (addr d.p ≤ a ∧ a < addr d.p) := by omega
      simp only [Half.without, hd0, add_zero]
      by_cases h1 : addr d.p ≤ a
      · have h2 : ¬ a < addr d.p := by omega
        simp [h2]
      · simp [h1]
    -- first drop the old variable `i`, then create it anew
    have hr' : HRel ok0 cell0 n (Function.update var i none) view { h.without d.p d.n with slots := put h.slots i none } := by
      obtain ⟨h', he, hr'⟩ := hr.destroy hi fun k l hv => by
        obtain ⟨y, -, -, g1, -⟩ := hr.view k i l hv
        exact hnot y g1
      unfold Half.destroy Half.free at he
      rw [hd] at he
      simp only [Option.bind_eq_bind, Option.bind_some] at he
      rw [if_pos hacc] at he
      cases he
      exact hr'
    have hc := hr'.create (i := i) (m := t.n) (q := q) (f := trunc (n j) x) (x := x) (Function.update_self ..)
      (fun k hk => (hfree _).trans (hq k (by omega))) fun k hk => if_pos (by omega)
    refine ⟨{ (h.without d.p d.n).alloc q t.n (trunc (n j) x) with slots := put h.slots i (some ⟨vecData q t.n, t.n, vecData q t.n⟩) }, ?_, ?_⟩
    · unfold Half.assign
      rw [ht, hd]
      simp only [Option.bind_eq_bind, Option.bind_some, hr.read hj ht]
      rw [if_neg heq, Half.free, if_pos hacc]
      rfl
    · have h1 : put n i t.n = n := by funext k; unfold put; split <;> [(rename_i hk; rw [hk, hln, hnn]); rfl]
      have h2 : ∀ s : Option Store, put (put h.slots i none) i s = put h.slots i s := by
        intro s; funext k; unfold put; split <;> rfl
      rw [h1, Function.update_idem] at hc
      convert hc using 1
      simp only [Half.create, Half.alloc, Half.without, h2]

theorem HRel.move (hr : HRel ok0 cell0 n var view h) {scl : Bool} {i j q : ℕ} {x : ℕ → α} (hi : var i = none) (hj : var j = some (some x))
    (hq : ∀ k < n j, h.ok (q + k) = false) {view' : ℕ → Option (ℕ × List ℕ)}
    (hv : if scl then view' = view else Follows view view' i j) :
    ∃ h', h.move scl i j q = some h' ∧ HRel ok0 cell0 (put n i (n j))
      (Function.update (if scl then var else Function.update var j (some none)) i (some (some x))) view' h' := by
  cases scl with
  | true => obtain rfl : view' = view := hv; exact hr.copy hi hj hq
  | false =>
    obtain ⟨t, ht⟩ := hr.ex hj
    have hij : i ≠ j := by rintro rfl; rw [hi] at hj; cases hj
    refine ⟨{ h with slots := put (put h.slots j (some ⟨none, 0, t.ptr⟩)) i (some ⟨t.p, t.n, t.p⟩) }, by simp [Half.move, ht], ?_⟩
    exact hr.take hij hj ht hv rfl (.inl rfl) (.inl rfl) fun d a hd => by rw [hr.nex hi] at hd; cases hd

theorem HRel.moveAssign (hr : HRel ok0 cell0 n var view h) {scl : Bool} {i j q : ℕ} {x : ℕ → α} {u : Option (ℕ → α)} (hij : i ≠ j) (hi : var i = some u)
    (hj : var j = some (some x)) (hnn : n i = n j) (hq : ∀ k < n j, h.ok (q + k) = false)
    {view' : ℕ → Option (ℕ × List ℕ)} (hv : if scl then view' = view else Follows view view' i j) :
    ∃ h', h.moveAssign scl i j q = some h' ∧ HRel ok0 cell0 n
      (Function.update (if scl then var else Function.update var j (some none)) i (some (some x))) view' h' := by
  cases scl with
  | true => obtain rfl : view' = view := hv; exact hr.assign hij hi hj hnn hq
  | false =>
    obtain ⟨t, ht⟩ := hr.ex hj
    obtain ⟨d, hd⟩ := hr.ex hi
    refine ⟨{ h with slots := put (put h.slots j (some ⟨d.p, d.n, t.ptr⟩)) i (some ⟨t.p, t.n, t.p⟩) }, by simp [Half.moveAssign, ht, hd], ?_⟩
    have h1 : put n i (n j) = n := by funext k; unfold put; split <;> [(rename_i hk; rw [hk, hnn]); rfl]
    have := hr.take (ptr := t.ptr) hij hj ht hv (hr.own i d hd).1 (.inr ⟨d, hd, rfl, rfl⟩) (by rw [← hnn]; exact (hr.own i d hd).2)
      fun d' a hd' hin => by
        obtain rfl : d = d' := Option.some.inj (hd.symm.trans hd')
        exact hin
    rwa [h1] at this

/-! ### Both halves -/

omit [Zero α]

/-- values of a variable, `none` when moved from -/
def AVar.val : AVar α → Option (ℕ → α)
  | .live _ x _ => some x
  | .moved _ => none

/-- adjoints of a variable, `none` when moved from -/
def AVar.adj : AVar α → Option (ℕ → α)
  | .live _ _ y => some y
  | .moved _ => none

def AVars.vals (A : AVars α) : ℕ → Option (Option (ℕ → α)) := fun i => (A.var i).map AVar.val
def AVars.adjs (A : AVars α) : ℕ → Option (Option (ℕ → α)) := fun i => (A.var i).map AVar.adj
def AVars.vw (A : AVars α) : ℕ → Option (ℕ × List ℕ) := fun k => (A.view k).map fun p => (p.1, p.2.1)

/-- the concrete state implements the abstract one -/
structure WRel (s : St α) (A : AVars α) (w : Vars α) : Prop where
  v : HRel s.vok s.val (fun i => (w.shape i).size) A.vals A.vw w.v
  a : HRel s.aok s.adj (fun i => (w.shape i).size) A.adjs A.vw w.a
  shape : ∀ i v, A.var i = some v → w.shape i = v.shape
  vshape : ∀ k i l sh, A.view k = some (i, l, sh) → w.vshape k = sh ∧ l.length = sh.size

theorem select_of {f : Part} {l l' : List ℕ} {sh sh' : Shape} {off : ℕ} (h : f.select l sh = some (l', sh')) (hl : l = List.range' off l.length)
    (hs : l.length = sh.size) : ∃ o, f.of sh = some (o, sh') ∧ l' = List.range' (off + o) l'.length ∧ o + l'.length ≤ l.length ∧ l'.length = sh'.size := by
  cases f with
  | whole =>
    cases h
    exact ⟨0, rfl, hl, by omega, hs⟩
  | elem i =>
    simp only [Part.select] at h
    split at h
    · rename_i hk
      obtain ⟨e, he, heq⟩ := Option.map_eq_some_iff.1 h
      cases heq
      obtain ⟨hi, hie⟩ := List.getElem?_eq_some_iff.1 he
      refine ⟨i, by rw [Part.of, if_pos ⟨hk, hs ▸ hi⟩], ?_, by simpa using hi, rfl⟩
      have h1 : (List.range' off l.length)[i]? = some e := by rw [← hl]; exact he
      rw [List.getElem?_range' hi] at h1
      have h2 : off + i = e := by simpa using h1
      simp [h2]
    · cases h
  | head m =>
    simp only [Part.select] at h
    split at h
    · rename_i hk
      cases h
      refine ⟨0, by rw [Part.of, if_pos ⟨hk.1, hs ▸ hk.2⟩], ?_, by simp, by simp [Shape.vec, Shape.size, hk.2]⟩
      have h1 : ∀ L : ℕ, m ≤ L → (List.range' off L).take m = List.range' off m := by
        intro L hL
        refine List.ext_getElem (by simpa using hL) fun k h1 h2 => ?_
        simp
      rw [List.length_take, Nat.min_eq_left hk.2, Nat.add_zero, ← h1 _ hk.2, ← hl]
    · cases h
  | tail m =>
    simp only [Part.select] at h
    split at h
    · rename_i hk
      cases h
      refine ⟨sh.size - m, by rw [Part.of, if_pos ⟨hk.1, hs ▸ hk.2⟩], ?_, ?_, ?_⟩
      · rw [hl, List.drop_range']
        simp [hs]
      · rw [List.length_drop]; have := hk.2; omega
      · rw [List.length_drop]; have := hk.2; simp only [Shape.vec, Shape.size, mul_one]; omega
    · cases h

theorem size_put {f : ℕ → Shape} {i : ℕ} {sh : Shape} : (fun k => (put f i sh k).size) = put (fun k => (f k).size) i sh.size := by
  funext k; unfold put; split <;> rfl

theorem vals_set {A : AVars α} {i : ℕ} {x : Option (AVar α)} : (A.set i x).vals = Function.update A.vals i (x.map AVar.val) := by
  funext k
  unfold AVars.vals AVars.set
  by_cases hk : k = i
  · subst hk; simp
  · simp [Function.update_of_ne hk]

theorem adjs_set {A : AVars α} {i : ℕ} {x : Option (AVar α)} : (A.set i x).adjs = Function.update A.adjs i (x.map AVar.adj) := by
  funext k
  unfold AVars.adjs AVars.set
  by_cases hk : k = i
  · subst hk; simp
  · simp [Function.update_of_ne hk]

theorem vw_set {A : AVars α} {i : ℕ} {x : Option (AVar α)} : (A.set i x).vw = A.vw := rfl

theorem forget_view {A : AVars α} {i k : ℕ} {p : ℕ × List ℕ × Shape} (h : (A.forget i).view k = some p) : A.view k = some p ∧ p.1 ≠ i := by
  simp only [AVars.forget, Option.bind_eq_some_iff] at h
  obtain ⟨r, h1, h2⟩ := h
  split at h2
  · cases h2
  · cases h2; exact ⟨h1, by assumption⟩

theorem forget_vw {A : AVars α} {i k : ℕ} {p : ℕ × List ℕ} (h : (A.forget i).vw k = some p) : A.vw k = some p ∧ p.1 ≠ i := by
  obtain ⟨r, h1, h2⟩ := Option.map_eq_some_iff.1 h
  obtain ⟨h3, h4⟩ := forget_view h1
  subst h2
  exact ⟨by rw [AVars.vw, h3]; rfl, h4⟩

theorem WRel.forget {s : St α} {A : AVars α} {w : Vars α} (h : WRel s A w) (i : ℕ) : WRel s (A.forget i) w :=
  ⟨h.v.mono fun _ _ hk => (forget_vw hk).1, h.a.mono fun _ _ hk => (forget_vw hk).1, h.shape, fun k j l sh hk => h.vshape k j l sh (forget_view hk).1⟩

theorem follow_view {A : AVars α} {i j k l : ℕ} {e : List ℕ} {sh : Shape} (h : (A.follow j i).view k = some (l, e, sh)) :
    (l ≠ j ∧ A.view k = some (l, e, sh)) ∨ (l = i ∧ A.view k = some (j, e, sh)) := by
  obtain ⟨⟨l', e', sh'⟩, h1, h2⟩ := Option.map_eq_some_iff.1 h
  by_cases hj : l' = j
  · subst hj
    simp only [if_true, Prod.mk.injEq] at h2
    obtain ⟨rfl, rfl, rfl⟩ := h2
    exact .inr ⟨rfl, h1⟩
  · simp only [if_neg hj, Prod.mk.injEq] at h2
    obtain ⟨rfl, rfl, rfl⟩ := h2
    exact .inl ⟨hj, h1⟩

theorem vw_eq {A : AVars α} {k l : ℕ} {e : List ℕ} (h : A.vw k = some (l, e)) : ∃ sh, A.view k = some (l, e, sh) := by
  obtain ⟨⟨l', e', sh'⟩, h1, h2⟩ := Option.map_eq_some_iff.1 h
  cases h2
  exact ⟨sh', h1⟩

theorem follow_follows {A : AVars α} {i j : ℕ} (hi : ∀ k e, A.vw k ≠ some (i, e)) : Follows A.vw (A.follow j i).vw i j := by
  intro k l e h
  obtain ⟨sh, h1⟩ := vw_eq h
  rcases follow_view h1 with ⟨h2, h3⟩ | ⟨rfl, h3⟩
  · have h4 : A.vw k = some (l, e) := by rw [AVars.vw, h3]; rfl
    exact .inl ⟨fun he => hi k e (he ▸ h4), h2, h4⟩
  · exact .inr ⟨rfl, by rw [AVars.vw, h3]; rfl⟩

theorem set_shape {A : AVars α} {f : ℕ → Shape} (h : ∀ i v, A.var i = some v → f i = v.shape) {i : ℕ} {u : AVar α} {sh : Shape} (hu : u.shape = sh) :
    ∀ j v, (A.set i (some u)).var j = some v → put f i sh j = v.shape := by
  intro j v hv
  unfold AVars.set at hv
  by_cases hj : j = i
  · subst hj
    simp only [Function.update_self, Option.some.injEq] at hv
    rw [put_same, ← hv, hu]
  · simp only [Function.update_of_ne hj] at hv
    rw [put_ne hj, h j v hv]

theorem set_shape' {A : AVars α} {f : ℕ → Shape} (h : ∀ i v, A.var i = some v → f i = v.shape) {i : ℕ} {u : AVar α} (hu : f i = u.shape) :
    ∀ j v, (A.set i (some u)).var j = some v → f j = v.shape := by
  have := set_shape h (i := i) (u := u) rfl
  intro j v hv
  rw [← this j v hv]
  unfold put
  split
  · rename_i hj; rw [hj, hu]
  · rfl

variable [Zero α]

theorem WRel.step {s : St α} {A A' : AVars α} {w : Vars α} {c : VarStep α} (h : WRel s A w) (hs : A.step c = some A') (hf : FreshStep w c) :
    ∃ w', w.step c = some w' ∧ WRel s A' w' := by
  cases c with
  | create i sh c qv qa =>
    simp only [AVars.step] at hs
    split at hs
    · rename_i hi
      cases hs
      refine ⟨_, rfl, ?_, ?_, set_shape h.shape rfl, h.vshape⟩
      · rw [vals_set, vw_set, size_put]
        exact h.v.create (by rw [AVars.vals, hi]; rfl) hf.1 fun k _ => by split <;> rfl
      · rw [adjs_set, vw_set, size_put]
        exact h.a.create (by rw [AVars.adjs, hi]; rfl) hf.2 fun k _ => rfl
    · cases hs
  | copy i j qv qa =>
    simp only [AVars.step] at hs
    split at hs
    · rename_i sh x y hi hj
      cases hs
      obtain ⟨v, hv, hrv⟩ := h.v.copy (i := i) (j := j) (q := qv) (x := x) (by rw [AVars.vals, hi]; rfl) (by rw [AVars.vals, hj]; rfl) hf.1
      obtain ⟨a, ha, hra⟩ := h.a.copy (i := i) (j := j) (q := qa) (x := y) (by rw [AVars.adjs, hi]; rfl) (by rw [AVars.adjs, hj]; rfl) hf.2
      refine ⟨{ w with v := v, a := a, shape := put w.shape i (w.shape j) }, by simp only [Vars.step, hv, ha]; rfl, ?_, ?_, set_shape h.shape (h.shape j _ hj).symm, h.vshape⟩
      · rw [vals_set, vw_set, size_put]; exact hrv
      · rw [adjs_set, vw_set, size_put]; exact hra
    · cases hs
  | move i j qv qa =>
    simp only [AVars.step] at hs
    split at hs
    · rename_i sh x y hi hj
      have hsh : w.shape j = sh := h.shape j _ hj
      have key : ∀ B : AVars α, B.var = A.var → (if (w.shape j).isScl then B.vw = A.vw else Follows A.vw B.vw i j) →
          (∀ k i l sh, B.view k = some (i, l, sh) → w.vshape k = sh ∧ l.length = sh.size) →
          ∃ w', w.step (.move i j qv qa) = some w' ∧
            WRel s ((if (w.shape j).isScl then B else B.set j (some (.moved sh))).set i (some (.live sh x y))) w' := by
        intro B hvar hview hvs
        have hBs : ∀ i v, B.var i = some v → w.shape i = v.shape := fun i v hv => h.shape i v (hvar ▸ hv)
        have hvals : B.vals = A.vals := by unfold AVars.vals; rw [hvar]
        have hadjs : B.adjs = A.adjs := by unfold AVars.adjs; rw [hvar]
        obtain ⟨v, hv, hrv⟩ := h.v.move (scl := (w.shape j).isScl) (i := i) (j := j) (q := qv) (x := x) (by rw [AVars.vals, hi]; rfl) (by rw [AVars.vals, hj]; rfl) hf.1 hview
        obtain ⟨a, ha, hra⟩ := h.a.move (scl := (w.shape j).isScl) (i := i) (j := j) (q := qa) (x := y) (by rw [AVars.adjs, hi]; rfl) (by rw [AVars.adjs, hj]; rfl) hf.2 hview
        refine ⟨{ w with v := v, a := a, shape := put w.shape i (w.shape j) }, by simp only [Vars.step, hv, ha]; rfl, ?_, ?_, ?_, ?_⟩
        · rw [vals_set, vw_set, size_put]
          split <;> rename_i hc <;> simp only [hc] at hrv
          · rw [hvals]; exact hrv
          · rw [vals_set, vw_set, hvals]; exact hrv
        · rw [adjs_set, vw_set, size_put]
          split <;> rename_i hc <;> simp only [hc] at hra
          · rw [hadjs]; exact hra
          · rw [adjs_set, vw_set, hadjs]; exact hra
        · refine set_shape ?_ hsh.symm
          split
          · exact hBs
          · exact set_shape' hBs hsh
        · split
          · exact hvs
          · exact hvs
      rw [hsh] at key
      split at hs <;> rename_i hc <;> cases hs
      · have := key A rfl (by rw [if_pos hc]) h.vshape
        rwa [if_pos hc] at this
      · have := key (A.follow j i) rfl (by
            rw [if_neg hc]
            refine follow_follows fun k e hk => ?_
            obtain ⟨y, -, -, g1, -⟩ := h.v.view k i e hk
            rw [AVars.vals, hi] at g1; cases g1)
          fun k l e sh hk => by rcases follow_view hk with ⟨-, h1⟩ | ⟨-, h1⟩ <;> exact h.vshape _ _ _ _ h1
        rwa [if_neg hc] at this
    · cases hs
  | assign i j qv qa =>
    simp only [AVars.step] at hs
    split at hs
    · rename_i u sh x y hi hj
      split at hs
      · rename_i hu
        cases hs
        have hsh : w.shape j = sh := h.shape j _ hj
        have hsi : w.shape i = sh := (h.shape i _ hi).trans hu
        by_cases hij : i = j
        · subst hij
          refine ⟨w, by simp [Vars.step], ?_⟩
          have : A.set i (some (.live sh x y)) = A := by
            unfold AVars.set
            rw [← hj, Function.update_eq_self]
          rwa [this]
        · have hnn : (w.shape i).size = (w.shape j).size := by rw [hsh, hsi]
          obtain ⟨v, hv, hrv⟩ := h.v.assign (i := i) (j := j) (q := qv) (x := x) (u := u.val) hij (by rw [AVars.vals, hi]; rfl) (by rw [AVars.vals, hj]; rfl) hnn hf.1
          obtain ⟨a, ha, hra⟩ := h.a.assign (i := i) (j := j) (q := qa) (x := y) (u := u.adj) hij (by rw [AVars.adjs, hi]; rfl) (by rw [AVars.adjs, hj]; rfl) hnn hf.2
          refine ⟨{ w with v := v, a := a }, ?_, ?_, ?_, set_shape' h.shape hsi, h.vshape⟩
          · simp only [Vars.step]
            rw [if_neg hij, if_pos (hsi.trans hsh.symm), hv, ha]
            rfl
          · rw [vals_set, vw_set]; exact hrv
          · rw [adjs_set, vw_set]; exact hra
      · cases hs
    · cases hs
  | moveAssign i j qv qa =>
    simp only [AVars.step] at hs
    split at hs
    · rename_i u sh x y hi hj
      split at hs
      · rename_i hu
        have hsh : w.shape j = sh := h.shape j _ hj
        have hsi : w.shape i = sh := (h.shape i _ hi).trans hu
        by_cases hij : i = j
        · rw [if_pos hij] at hs
          cases hs
          exact ⟨w, by simp [Vars.step, hij], h⟩
        rw [if_neg hij] at hs
        have hnn : (w.shape i).size = (w.shape j).size := by rw [hsh, hsi]
        have key : ∀ B : AVars α, B.var = A.var → (if (w.shape j).isScl then B.vw = A.vw else Follows A.vw B.vw i j) →
            (∀ k i l sh, B.view k = some (i, l, sh) → w.vshape k = sh ∧ l.length = sh.size) →
            ∃ w', w.step (.moveAssign i j qv qa) = some w' ∧
              WRel s ((if (w.shape j).isScl then B else B.set j (some (.moved sh))).set i (some (.live sh x y))) w' := by
          intro B hvar hview hvs
          have hBs : ∀ i v, B.var i = some v → w.shape i = v.shape := fun i v hv => h.shape i v (hvar ▸ hv)
          have hvals : B.vals = A.vals := by unfold AVars.vals; rw [hvar]
          have hadjs : B.adjs = A.adjs := by unfold AVars.adjs; rw [hvar]
          obtain ⟨v, hv, hrv⟩ := h.v.moveAssign (scl := (w.shape j).isScl) (i := i) (j := j) (q := qv) (x := x) (u := u.val) hij (by rw [AVars.vals, hi]; rfl)
            (by rw [AVars.vals, hj]; rfl) hnn hf.1 hview
          obtain ⟨a, ha, hra⟩ := h.a.moveAssign (scl := (w.shape j).isScl) (i := i) (j := j) (q := qa) (x := y) (u := u.adj) hij (by rw [AVars.adjs, hi]; rfl)
            (by rw [AVars.adjs, hj]; rfl) hnn hf.2 hview
          refine ⟨{ w with v := v, a := a }, ?_, ?_, ?_, ?_, ?_⟩
          · simp only [Vars.step]
            rw [if_neg hij, if_pos (hsi.trans hsh.symm), hv, ha]
            rfl
          · rw [vals_set, vw_set]
            split <;> rename_i hc <;> simp only [hc] at hrv
            · rw [hvals]; exact hrv
            · rw [vals_set, vw_set, hvals]; exact hrv
          · rw [adjs_set, vw_set]
            split <;> rename_i hc <;> simp only [hc] at hra
            · rw [hadjs]; exact hra
            · rw [adjs_set, vw_set, hadjs]; exact hra
          · refine set_shape' ?_ hsi
            split
            · exact hBs
            · exact set_shape' hBs hsh
          · split
            · exact hvs
            · exact hvs
        rw [hsh] at key
        split at hs <;> rename_i hc <;> cases hs
        · have := key A rfl (by rw [if_pos hc]) h.vshape
          rwa [if_pos hc] at this
        · have := key ((A.forget i).follow j i) rfl (by
              rw [if_neg hc]
              intro k l e hk
              rcases follow_follows (j := j) (A := A.forget i) (i := i) (fun k e hk => (forget_vw hk).2 rfl) k l e hk with ⟨h1, h2, h3⟩ | ⟨h1, h3⟩
              · exact .inl ⟨h1, h2, (forget_vw h3).1⟩
              · exact .inr ⟨h1, (forget_vw h3).1⟩)
            fun k l e sh hk => by rcases follow_view hk with ⟨-, h1⟩ | ⟨-, h1⟩ <;> exact h.vshape _ _ _ _ (forget_view h1).1
          rwa [if_neg hc] at this
      · cases hs
    · cases hs
  | setVal i k x =>
    simp only [AVars.step] at hs
    split at hs
    · rename_i sh y z hi
      split at hs
      · rename_i hk
        cases hs
        have hsh : w.shape i = sh := h.shape i _ hi
        have hv : A.vals i = some (some y) := by rw [AVars.vals, hi]; rfl
        obtain ⟨t, ht⟩ := h.v.ex hv
        obtain ⟨v, h1, h2⟩ := h.v.write (y := x) hv ht (by rw [hsh]; exact hk)
        refine ⟨{ w with v := v }, ?_, by rw [vals_set, vw_set]; exact h2, ?_, set_shape' h.shape hsh, h.vshape⟩
        · simp only [Vars.step, ht, Option.bind_eq_bind, Option.bind_some, hsh]
          rw [if_pos hk, (h.v.live i y t hv ht).1, h1]
          rfl
        · rw [adjs_set, vw_set]
          have := h.a
          rwa [show Function.update A.adjs i ((some (AVar.live sh (Function.update y k x) z)).map AVar.adj) = A.adjs by
            rw [Function.update_eq_self_iff, AVars.adjs, hi]; rfl]
      · cases hs
    · cases hs
  | setAdj i k x =>
    simp only [AVars.step] at hs
    split at hs
    · rename_i sh y z hi
      split at hs
      · rename_i hk
        cases hs
        have hsh : w.shape i = sh := h.shape i _ hi
        have hv : A.adjs i = some (some z) := by rw [AVars.adjs, hi]; rfl
        obtain ⟨t, ht⟩ := h.a.ex hv
        obtain ⟨v, h1, h2⟩ := h.a.write (y := x) hv ht (by rw [hsh]; exact hk)
        refine ⟨{ w with a := v }, ?_, ?_, by rw [adjs_set, vw_set]; exact h2, set_shape' h.shape hsh, h.vshape⟩
        · simp only [Vars.step, ht, Option.bind_eq_bind, Option.bind_some, hsh]
          rw [if_pos hk, (h.a.live i z t hv ht).1, h1]
          rfl
        · rw [vals_set, vw_set]
          have := h.v
          rwa [show Function.update A.vals i ((some (AVar.live sh y (Function.update z k x))).map AVar.val) = A.vals by
            rw [Function.update_eq_self_iff, AVars.vals, hi]; rfl]
      · cases hs
    · cases hs
  | destroy i =>
    simp only [AVars.step] at hs
    split at hs
    · rename_i u hi
      cases hs
      have hB := h.forget i
      obtain ⟨v, hv, hrv⟩ := hB.v.destroy (i := i) (x := u.val) (by rw [AVars.vals]; exact congrArg (Option.map AVar.val) hi) fun k l hk => (forget_vw hk).2 rfl
      obtain ⟨a, ha, hra⟩ := hB.a.destroy (i := i) (x := u.adj) (by rw [AVars.adjs]; exact congrArg (Option.map AVar.adj) hi) fun k l hk => (forget_vw hk).2 rfl
      refine ⟨{ w with v := v, a := a }, by simp only [Vars.step, hv, ha]; rfl, ?_, ?_, fun j u' hu => ?_, hB.vshape⟩
      · rw [vals_set, vw_set]; exact hrv
      · rw [adjs_set, vw_set]; exact hra
      · by_cases hj : j = i
        · subst hj; simp [AVars.set] at hu
        · exact h.shape j u' (by simpa [AVars.set, AVars.forget, Function.update_of_ne hj] using hu)
    · cases hs
  | view k i f =>
    simp only [AVars.step] at hs
    split at hs
    · rename_i sh x y hi
      obtain ⟨⟨l, sh'⟩, hsel, hs⟩ := Option.bind_eq_some_iff.1 hs
      cases hs
      have hsh : w.shape i = sh := h.shape i _ hi
      have hv : A.vals i = some (some x) := by rw [AVars.vals, hi]; rfl
      have ha : A.adjs i = some (some y) := by rw [AVars.adjs, hi]; rfl
      obtain ⟨t, ht⟩ := h.v.ex hv
      obtain ⟨d, hd⟩ := h.a.ex ha
      obtain ⟨o, h1, h2, h3, h4⟩ := select_of (off := 0) hsel (by rw [List.length_range, List.range_eq_range']) List.length_range
      rw [Nat.zero_add] at h2
      rw [List.length_range] at h3
      have hvw : ∀ p : ℕ × List ℕ × Shape, ({ A with view := Function.update A.view k (some p) } : AVars α).vw = Function.update A.vw k (some (p.1, p.2.1)) := by
        intro p; funext m
        unfold AVars.vw
        by_cases hm : m = k
        · subst hm; simp
        · simp [Function.update_of_ne hm]
      refine ⟨{ w with v := w.v.point k t.ptr o, a := w.a.point k d.ptr o, vshape := put w.vshape k sh' }, ?_, ?_, ?_, h.shape, ?_⟩
      · simp only [Vars.step, ht, hd, Option.bind_eq_bind, Option.bind_some, hsh, h1]
      · rw [hvw]
        exact h.v.point hv ht h2 (by rw [hsh]; exact h3) (by rw [(h.v.live i x t hv ht).1])
      · rw [hvw]
        exact h.a.point ha hd h2 (by rw [hsh]; exact h3) (by rw [(h.a.live i y d ha hd).1])
      · intro m j l'' sh'' hm
        by_cases hmk : m = k
        · subst hmk
          simp only [Function.update_self, Option.some.injEq, Prod.mk.injEq] at hm
          obtain ⟨-, rfl, rfl⟩ := hm
          exact ⟨put_same, h4⟩
        · simp only [Function.update_of_ne hmk] at hm
          exact ⟨(put_ne hmk).trans (h.vshape m j l'' sh'' hm).1, (h.vshape m j l'' sh'' hm).2⟩
    · cases hs
  | part k j f =>
    simp only [AVars.step] at hs
    obtain ⟨⟨i, l, sh⟩, hj, hs⟩ := Option.bind_eq_some_iff.1 hs
    obtain ⟨⟨l', sh'⟩, hsel, hs⟩ := Option.bind_eq_some_iff.1 hs
    cases hs
    have hvwj : A.vw j = some (i, l) := by rw [AVars.vw, hj]; rfl
    obtain ⟨x, t, off, hv, ht, hp, hl, hb⟩ := h.v.view j i l hvwj
    obtain ⟨y, d, off', ha, hd, hp', hl', hb'⟩ := h.a.view j i l hvwj
    obtain ⟨hsh, hlen⟩ := h.vshape j i l sh hj
    obtain ⟨o, h1, h2, h3, h4⟩ := select_of hsel hl hlen
    obtain ⟨o', h1', h2', h3', -⟩ := select_of hsel hl' hlen
    replace h3 : o + l'.length ≤ l.length := h3
    obtain rfl : o = o' := by simpa using (h1.symm.trans h1')
    have hvw : ∀ p : ℕ × List ℕ × Shape, ({ A with view := Function.update A.view k (some p) } : AVars α).vw = Function.update A.vw k (some (p.1, p.2.1)) := by
      intro p; funext m
      unfold AVars.vw
      by_cases hm : m = k
      · subst hm; simp
      · simp [Function.update_of_ne hm]
    have hcomp : ∀ (p : Option ℕ) (a b : ℕ), (p.map (· + a)).map (· + b) = p.map (· + (a + b)) := by
      intro p a b; cases p <;> simp [Nat.add_assoc]
    refine ⟨{ w with v := w.v.point k (w.v.ptrs j) o, a := w.a.point k (w.a.ptrs j) o, vshape := put w.vshape k sh' }, ?_, ?_, ?_, h.shape, ?_⟩
    · simp only [Vars.step, hsh, h1, Option.bind_eq_bind, Option.bind_some]
    · rw [hvw]
      exact h.v.point hv ht h2 (by show off + o + l'.length ≤ _; omega) (by rw [hp, hcomp])
    · rw [hvw]
      exact h.a.point ha hd h2' (by show off' + o + l'.length ≤ _; omega) (by rw [hp', hcomp])
    · intro m j l'' sh'' hm
      by_cases hmk : m = k
      · subst hmk
        simp only [Function.update_self, Option.some.injEq, Prod.mk.injEq] at hm
        obtain ⟨-, rfl, rfl⟩ := hm
        exact ⟨put_same, h4⟩
      · simp only [Function.update_of_ne hmk] at hm
        exact ⟨(put_ne hmk).trans (h.vshape m j l'' sh'' hm).1, (h.vshape m j l'' sh'' hm).2⟩
  | setViewVal k e x =>
    simp only [AVars.step] at hs
    obtain ⟨⟨i, l, sh⟩, hj, hs⟩ := Option.bind_eq_some_iff.1 hs
    obtain ⟨m, hm, hs⟩ := Option.bind_eq_some_iff.1 hs
    simp only at hs
    split at hs
    · rename_i sh' y z hi
      cases hs
      have hsh : w.shape i = sh' := h.shape i _ hi
      have hv : A.vals i = some (some y) := by rw [AVars.vals, hi]; rfl
      obtain ⟨-, t, off, -, ht, hp, hl, hb⟩ := h.v.view k i l (by rw [AVars.vw, hj]; rfl)
      obtain ⟨hsh', hlen⟩ := h.vshape k i l sh hj
      obtain ⟨he, -⟩ := List.getElem?_eq_some_iff.1 hm
      replace he : e < l.length := he
      have hmo : m = off + e := by
        have h1 : (List.range' off l.length)[e]? = some m := by rw [← hl]; exact hm
        rw [List.getElem?_range' he] at h1
        simpa using h1.symm
      obtain ⟨v, h1, h2⟩ := h.v.write (k := m) (y := x) hv ht (by omega)
      refine ⟨{ w with v := v }, ?_, by rw [vals_set, vw_set]; exact h2, ?_, set_shape' h.shape hsh, h.vshape⟩
      · simp only [Vars.step, hsh']
        rw [if_pos (hlen ▸ he), hp]
        have : w.v.write (t.p.map (· + off)) e x = w.v.write t.p m x := by
          unfold Half.write
          subst hmo
          cases hq : t.p with
          | none => simp [accessible]
          | some q => simp [addr, Nat.add_assoc]
        rw [this, h1]
        rfl
      · rw [adjs_set, vw_set]
        have := h.a
        rwa [show Function.update A.adjs i ((some (AVar.live sh' (Function.update y m x) z)).map AVar.adj) = A.adjs by
          rw [Function.update_eq_self_iff, AVars.adjs, hi]; rfl]
    · cases hs
  | setViewAdj k e x =>
    simp only [AVars.step] at hs
    obtain ⟨⟨i, l, sh⟩, hj, hs⟩ := Option.bind_eq_some_iff.1 hs
    obtain ⟨m, hm, hs⟩ := Option.bind_eq_some_iff.1 hs
    simp only at hs
    split at hs
    · rename_i sh' y z hi
      cases hs
      have hsh : w.shape i = sh' := h.shape i _ hi
      have hv : A.adjs i = some (some z) := by rw [AVars.adjs, hi]; rfl
      obtain ⟨-, t, off, -, ht, hp, hl, hb⟩ := h.a.view k i l (by rw [AVars.vw, hj]; rfl)
      obtain ⟨hsh', hlen⟩ := h.vshape k i l sh hj
      obtain ⟨he, -⟩ := List.getElem?_eq_some_iff.1 hm
      replace he : e < l.length := he
      have hmo : m = off + e := by
        have h1 : (List.range' off l.length)[e]? = some m := by rw [← hl]; exact hm
        rw [List.getElem?_range' he] at h1
        simpa using h1.symm
      obtain ⟨v, h1, h2⟩ := h.a.write (k := m) (y := x) hv ht (by omega)
      refine ⟨{ w with a := v }, ?_, ?_, by rw [adjs_set, vw_set]; exact h2, set_shape' h.shape hsh, h.vshape⟩
      · simp only [Vars.step, hsh']
        rw [if_pos (hlen ▸ he), hp]
        have : w.a.write (t.p.map (· + off)) e x = w.a.write t.p m x := by
          unfold Half.write
          subst hmo
          cases hq : t.p with
          | none => simp [accessible]
          | some q => simp [addr, Nat.add_assoc]
        rw [this, h1]
        rfl
      · rw [vals_set, vw_set]
        have := h.v
        rwa [show Function.update A.vals i ((some (AVar.live sh' y (Function.update z m x))).map AVar.val) = A.vals by
          rw [Function.update_eq_self_iff, AVars.vals, hi]; rfl]
    · cases hs

theorem WRel.run {s : St α} {A A' : AVars α} {w : Vars α} {cs : List (VarStep α)} (h : WRel s A w) (hs : A.run cs = some A') (hf : FreshRun w cs) :
    ∃ w', w.run cs = some w' ∧ WRel s A' w' := by
  induction cs generalizing A w with
  | nil => cases hs; exact ⟨w, rfl, h⟩
  | cons c cs ih =>
    obtain ⟨B, hB, hs⟩ := Option.bind_eq_some_iff.1 hs
    obtain ⟨w1, hw1, h1⟩ := h.step hB hf.1
    obtain ⟨w2, hw2, h2⟩ := ih h1 hs (hf.2 w1 hw1)
    exact ⟨w2, by simp [Vars.run, hw1, hw2], h2⟩

omit [Zero α] in
theorem WRel.init (s : St α) : WRel s AVars.none (Vars.none s) := by
  refine ⟨⟨?_, ?_, ?_, ?_, ?_, ?_, ?_⟩, ⟨?_, ?_, ?_, ?_, ?_, ?_, ?_⟩, ?_, ?_⟩ <;> simp_all [AVars.none, Vars.none, AVars.vals, AVars.adjs, AVars.vw]

end FastAD
