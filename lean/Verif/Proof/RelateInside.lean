import Verif.Proof.Relate

/-!
# Being inside the domains carries over to related runs
-/

namespace FastAD

set_option linter.unusedSectionVars false

variable {α : Type} [Zero α] [One α] [Add α] [Sub α] [Neg α] [Mul α] [Div α] [NatCast α] [IntCast α]
variable [Fn α] [HasInf α] [LinAlg α]
variable {ι : Type} {β : ι → Type} [∀ i, Zero (β i)] [∀ i, One (β i)] [∀ i, Add (β i)] [∀ i, Sub (β i)] [∀ i, Neg (β i)]
variable [∀ i, Mul (β i)] [∀ i, Div (β i)] [∀ i, NatCast (β i)] [∀ i, IntCast (β i)]
variable [∀ i, Fn (β i)] [∀ i, HasInf (β i)] [∀ i, LinAlg (β i)]

/-- the domains `D` are open, as seen by the families related to a number -/
structure DomsTo (φ : Filter ι) (D : Doms α) (D' : ∀ i, Doms (β i)) (R : α → (∀ i, β i) → Prop) : Prop where
  un : ∀ {op x c}, D.un op x → R x c → ∀ᶠ i in φ, (D' i).un op (c i)
  den : ∀ {x c}, D.den x → R x c → ∀ᶠ i in φ, (D' i).den (c i)
  cmp : ∀ {x y c d}, D.cmp x y → R x c → R y d → ∀ᶠ i in φ, (D' i).cmp (c i) (d i)
  pow : ∀ {n x c}, D.pow n x → R x c → ∀ᶠ i in φ, (D' i).pow n (c i)
  fac : ∀ {x c}, D.fac x → R x c → ∀ᶠ i in φ, (D' i).fac (c i)
  stat : ∀ {o n v} {V : ∀ i, Args (β i)}, D.stat o n v → (∀ s q, R (v.get s q) fun i => (V i).get s q) → ∀ᶠ i in φ, (D' i).stat o n (V i)

variable {γ : Type} (f : γ → α) (g : ∀ i, γ → β i) {φ : Filter ι} {D : Doms α} {D' : ∀ i, Doms (β i)} {R : α → (∀ i, β i) → Prop}

theorem eventually_lt {n : ℕ} {P : ℕ → ι → Prop} (h : ∀ k < n, ∀ᶠ i in φ, P k i) : ∀ᶠ i in φ, ∀ k < n, P k i :=
  (Filter.eventually_all_finite (Set.finite_lt_nat n)).2 h

theorem related_inside (hR : Related φ D R) (hD : DomsTo φ D D' R) (hc : ∀ c, R (f c) fun i => g i c) {m : ℕ → α} {m' : ∀ i, ℕ → β i} (e : Expr γ) :
    e.WF → (e.map f).Inside D m → (∀ a ∈ e.reads, R (m a) fun i => m' i a) → ∀ᶠ i in φ, (e.map (g i)).Inside (D' i) (m' i) := by
  have hex := fun e : Expr γ => related_exact f g hR hc (m := m) (m' := m') e
  have list : ∀ es : Exprs γ, (∀ e ∈ es.toList, e.WF → (e.map f).Inside D m → (∀ a ∈ e.reads, R (m a) fun i => m' i a) →
      ∀ᶠ i in φ, (e.map (g i)).Inside (D' i) (m' i)) → es.WFs → (es.maps f).Insides D m → (∀ a ∈ es.readss, R (m a) fun i => m' i a) →
      ∀ᶠ i in φ, (es.maps (g i)).Insides (D' i) (m' i) := by
    intro es
    induction es using Exprs.rec (motive_1 := fun _ => True) with
    | nil => exact fun _ _ _ _ => .of_forall fun _ => trivial
    | cons e es _ ih =>
      intro hP hwf hi hm
      exact (hP e (by simp [Exprs.toList]) hwf.1 hi.1 fun a ha => hm a (Or.inl ha)).and
        (ih (fun x hx => hP x (by simp [Exprs.toList, hx])) hwf.2 hi.2 fun a ha => hm a (Or.inr ha))
    | _ => trivial
  induction e using Expr.induct with
  | var | const | cview => exact fun _ _ _ => .of_forall fun _ => trivial
  | unary op e w ih =>
    intro hwf hi hm
    refine (ih hwf.1 hi.1 hm).and ?_
    simp only [map_size]
    exact eventually_lt fun k hk => hD.un (hi.2 k (by rwa [map_size])) (hex e hwf.1 hi.1 hm k hk).1
  | binary op p q w ihl ihr =>
    intro hwf hi hm
    obtain ⟨wfl, wfr, hok, hd, -⟩ := hwf
    have hl := fun k (hk : k < w.size) => (hex p wfl hi.1 (fun a ha => hm a (Or.inl ha)) _ (bcastIdx_lt wfl.shapeOk hd.1 hk)).1
    have hr := fun k (hk : k < w.size) => (hex q wfr hi.2.1 (fun a ha => hm a (Or.inr ha)) _ (bcastIdx_lt wfr.shapeOk hd.2.1 hk)).1
    refine (ihl wfl hi.1 fun a ha => hm a (Or.inl ha)).and ((ihr wfr hi.2.1 fun a ha => hm a (Or.inr ha)).and ?_)
    have h2 := hi.2.2
    simp only [map_size, map_shape, map_isCond] at h2 ⊢
    cases op
    case add | sub | mul => exact .of_forall fun _ => trivial
    case div => exact eventually_lt fun k hk => hD.den (h2 k hk) (hex q wfr hi.2.1 (fun a ha => hm a (Or.inr ha)) k hk).1
    case and | or => exact .of_forall fun _ => h2
    all_goals exact eventually_lt fun k hk => hD.cmp (h2 k hk) (hl k hk) (hr k hk)
  | pow n e w ih =>
    intro hwf hi hm
    refine (ih hwf.1 hi.1 hm).and ?_
    simp only [map_size]
    exact eventually_lt fun k hk => hD.pow (hi.2 k (by rwa [map_size])) (hex e hwf.1 hi.1 hm k hk).1
  | prodElem e w c ih =>
    intro hwf hi hm
    refine (ih hwf.1 hi.1 hm).and ?_
    simp only [map_size]
    exact eventually_lt fun k hk => hD.fac (hi.2 k (by rwa [map_size])) (hex e hwf.1 hi.1 hm k hk).1
  | transpose e w ih => exact fun hwf hi hm => ih hwf.1 hi hm
  | dot p q w ihl ihr =>
    exact fun hwf hi hm => (ihl hwf.1 hi.1 fun a ha => hm a (Or.inl ha)).and (ihr hwf.2.1 hi.2 fun a ha => hm a (Or.inr ha))
  | sumIter es w ih => exact fun hwf hi hm => list es ih hwf.1 hi hm
  | prodIter es w ih =>
    intro hwf hi hm
    refine (list es ih hwf.1 hi.1 hm).and ?_
    have : ∀ᶠ i in φ, ∀ e ∈ {e | e ∈ es.toList}, ∀ k < e.size, (D' i).fac ((e.map (g i)).exact (m' i) k) := by
      refine (Filter.eventually_all_finite (List.finite_toSet _)).2 fun e he => eventually_lt fun k hk => ?_
      have hmem : e.map f ∈ (es.maps f).toList := by rw [maps_toList]; exact List.mem_map_of_mem he
      exact hD.fac (hi.2 _ hmem k (by rwa [map_size])) (hex e (hwf.1.mem e he) (Insides.mem hi.1 _ hmem) (fun a ha => hm a (readss_mem e he ha)) k hk).1
    filter_upwards [this] with i hi
    simp only [maps_toList, List.forall_mem_map, map_size]
    exact fun e he k hk => hi e he k hk
  | reduce op es w ih =>
    intro hwf hi hm
    refine (list es ih hwf.1 hi.1 hm).and ?_
    rcases hi.2 with h | h | ⟨o, k, n, v, rfl, hv, hd⟩
    · exact .of_forall fun _ => .inl h
    · exact .of_forall fun _ => .inr (.inl h)
    · rcases hwf.2.2 with ⟨e, rfl, -, -⟩ | ⟨o', k', h, hfit⟩
      · simp [Exprs.maps, Exprs.exacts, statArgs] at hv
      cases h
      obtain ⟨n', v', V, -, hv', hV, hrel, -⟩ := related_args f g hR hfit (m := m) (m' := m') fun e he q hq =>
        (hex e (hwf.1.mem e he) (Insides.mem hi.1 _ (by rw [maps_toList]; exact List.mem_map_of_mem he)) (fun a ha => hm a (readss_mem e he ha)) q hq).1
      obtain ⟨rfl, rfl⟩ : n' = n ∧ v' = v := by rw [truncs] at hv'; rw [hv'] at hv; simpa using hv
      exact (hD.stat hd hrel).mono fun i hi => .inr (.inr ⟨o, k, n', V i, rfl, hV i, hi⟩)
  | ifElse c p q w ihc iha ihb =>
    intro hwf hi hm
    obtain ⟨wfc, wfa, wfb, hkc, hic, hsa, hsb, -⟩ := hwf
    obtain ⟨ic, icc, ib⟩ := hi
    have icc' := icc
    rw [map_isCond] at icc
    have h0 : 0 < c.size := by
      rw [show c.size = 1 from wfc.shapeOk.size_scl (by simp [Shape.isScl, hkc])]; exact Nat.one_pos
    have hv := ((hex c wfc ic (fun a ha => hm a (Or.inl ha)) 0 h0).2 icc).toBool (isCond_bools f hR icc wfc ic h0)
    refine (ihc wfc ic fun a ha => hm a (Or.inl ha)).and ?_
    by_cases ht : toBool ((c.map f).exact m 0) = true
    · rw [if_pos ht] at ib
      filter_upwards [hv, iha wfa ib fun a ha => hm a (Or.inr (Or.inl ha))] with i h1 h2
      rw [map_isCond, h1, if_pos ht]
      exact ⟨icc, h2⟩
    · rw [if_neg ht] at ib
      filter_upwards [hv, ihb wfb ib fun a ha => hm a (Or.inr (Or.inr ha))] with i h1 h2
      rw [map_isCond, h1, if_neg ht]
      exact ⟨icc, h2⟩
  | eq | opEq | glue | forEach => exact fun h => h.elim

end FastAD
