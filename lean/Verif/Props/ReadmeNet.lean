import Verif.Proof.ReadmeNet
import Verif.Props.Params
import Verif.Props.Loop

/-!
# C46: the gradient of a loss over a data set as one vector; the neural network of the README
-/

namespace FastAD

variable [HasInf ℝ] [LinAlg ℝ]

/-- **C46, in general.** The loop over the rows of a data set for a program whose variables lie in a block of `N` parameters or in a working area that contains the placeholders.  The buffers
of the rows are outside the block of parameters and the adjoints of all assigned variables are reset in every round.  For any number of rows with any contents the loop is defined, returns
the sum of the values over the rows, and the block of adjoints increases by the gradient of the total loss as a function of the vector of parameters (the Fréchet derivative on
`ℝᴺ`).  No other adjoint of the user changes, unless it is reset or belongs to a variable of the program. -/
theorem C46_data_gradient [LawfulLinAlg] {p : Expr ℝ} {s : St ℝ} {b : Pack} {UV UA : Set ℕ} {qv qa N wv wa M : ℕ} (hp : p.Program)
    (hw : p.Within UV UA s.vok s.aok) (hr : p.Room b UV UA s.vok s.aok) (hpar : p.Params qv qa N wv wa M) (hV : ∀ i < N, qv + i ∈ UV) (hU : ∀ i < N, qa + i ∈ UA)
    (hst : p.Stable) (hsz : 0 < p.size) (seed : ℕ → ℝ) {resets : List ℕ} (hres : ∀ a ∈ resets, s.aok a = true) (htr : ∀ a ∈ p.targetAdj, a ∈ resets)
    (hnr : ∀ i < N, qa + i ∉ resets) {rows : List (List (ℕ × ℝ))} (hrow : ∀ row ∈ rows, ∀ w ∈ row, s.vok w.1 = true ∧ ¬ (qv ≤ w.1 ∧ w.1 < qv + N))
    (hreg : ∀ m ∈ rowStores s.val rows, RegSeq p.flat (fun θ : Fin N → ℝ => withParams m qv θ) fun i => m (qv + i)) (loss : ℝ) :
    ∃ s', dataLoop (p.bind b).1 seed resets rows loss s = some (s', loss + total (fun m => p.result m 0) s.val rows) ∧
      HasFDerivAt (fun θ : Fin N → ℝ => total (fun m => ∑ k ∈ Finset.range p.size, seed k * p.result m k) (withParams s.val qv θ) rows)
        (∑ i : Fin N, (s'.adj (qa + i) - s.adj (qa + i)) • ContinuousLinearMap.proj (R := ℝ) (φ := fun _ : Fin N => ℝ) i) (fun i => s.val (qv + i)) ∧
      (∀ i < N, s'.val (qv + i) = s.val (qv + i)) ∧ ∀ a ∈ UA, a ∉ p.adjCells → a ∉ resets → s'.adj a = s.adj a := by
  obtain ⟨s', h, hok⟩ := dataLoop_params hp hw hr hpar hV hU hst hsz seed hres htr hnr rows loss rfl rfl hrow (fun _ _ _ => rfl) hreg
  refine ⟨s', h, hok.grad, fun i hi => ?_, hok.adj⟩
  have hplace : qv + i ∉ p.placeCells := by
    intro hc
    obtain ⟨x, hx, hcx⟩ := mem_placeCells.1 hc
    cases x with
    | eq v e w =>
      obtain ⟨k, hk, h0⟩ := mem_rng_iff.1 hcx
      obtain ⟨o, ho, h1, -⟩ := hpar.place _ hx v rfl k hk
      exact hpar.disjV i hi o ho (by omega)
    | _ => exact hcx.elim
  rw [hok.val _ (hV i hi) hplace, foldl_overlay fun r hr w hw hc => (hrow r hr w hw).2 (by omega)]

/-- C46 applied to the regression model of the README (Props/Loop.lean) with theta = (1, 2): the loss is 6655 and the adjoints of theta are the gradient of `55 (32 - θ₀ - 10 θ₁)²` -/
example [LawfulLinAlg] : ∃ s', dataLoop (Sample.Readme.loss.bind ⟨some 10, some 10⟩).1 1 [] Sample.Readme.rows 0 ⟨fun a => (a : ℝ) + 1, fun _ => 0, fun _ => true, fun _ => true⟩ =
      some (s', 6655) ∧
    HasFDerivAt (fun θ : Fin 2 → ℝ => 55 * (32 - θ 0 - 10 * θ 1) ^ 2)
      (∑ i : Fin 2, s'.adj i • ContinuousLinearMap.proj (R := ℝ) (φ := fun _ : Fin 2 => ℝ) i) fun i => (i : ℝ) + 1 := by
  have hv : ∀ u ∈ Sample.Readme.loss.vars, u = Sample.Readme.theta := by
    intro u hu
    simpa only [Sample.Readme.loss, Expr.mkPow, Expr.mkBinary, Expr.mkDot, Expr.vars, List.nil_append, List.mem_cons, List.not_mem_nil, or_false] using hu
  have hc : Sample.Readme.loss.constCells = {2, 3, 4} := by decide
  have ht : Sample.Readme.loss.targetCells = ∅ := by decide
  obtain ⟨s', h1, h2, -⟩ := C46_data_gradient (p := Sample.Readme.loss) (b := ⟨some 10, some 10⟩) (UV := {a | a < 5}) (UA := {a | a < 2}) (qv := 0) (qa := 0) (N := 2)
    (wv := 0) (wa := 0) (M := 0) (s := ⟨fun a => (a : ℝ) + 1, fun _ => 0, fun _ => true, fun _ => true⟩) (resets := []) (rows := Sample.Readme.rows) Sample.Readme.loss_program
    ⟨⟨fun u hu => by rw [hv u hu]; exact ⟨fun _ _ => rfl, fun _ _ => rfl⟩, fun c hc => by
        simp only [Sample.Readme.loss, Expr.mkPow, Expr.mkBinary, Expr.mkDot, Expr.cviews, List.append_nil, List.mem_append, List.mem_cons, List.not_mem_nil, or_false] at hc
        rcases hc with rfl | rfl <;> exact fun _ _ => rfl⟩,
      by
        have : Sample.Readme.loss.valCells ∪ Sample.Readme.loss.constCells = {0, 1, 2, 3, 4} := by decide
        rw [this]; intro a ha; fin_cases ha <;> simp,
      by
        have : Sample.Readme.loss.adjCells = {0, 1} := by decide
        rw [this]; intro a ha; fin_cases ha <;> simp⟩
    ⟨fun _ _ => rfl, fun _ _ => rfl, fun k _ h => by simp only [addr_some, Set.mem_ofPred_eq] at h; omega,
      fun k _ h => by simp only [addr_some, Set.mem_ofPred_eq] at h; omega⟩
    ⟨fun u hu => Or.inl (by rw [hv u hu]; exact fun k hk => ⟨k, hk, rfl, rfl⟩), fun x hx u hu => by simp only [Sample.Readme.loss, Expr.mkPow, Expr.flat, List.mem_singleton] at hx; subst hx; exact absurd hu (by simp [Expr.placeholder]),
      fun c h => by rw [hc] at h; rw [ht]; simp at h ⊢; omega,
      fun _ _ _ h => absurd h (by omega), fun _ _ _ h => absurd h (by omega)⟩
    (fun i hi => by simp; omega) (fun i hi => by simpa using hi) Sample.Readme.loss_stable (by decide) 1 (by simp) (by decide) (by simp)
    (fun row hr w hw => ⟨rfl, by have := Sample.Readme.rows_cells row hr w hw; omega⟩)
    (fun m _ => by simp [Sample.Readme.loss, Expr.mkPow, Expr.mkBinary, Expr.mkDot, Expr.flat, RegSeq, Expr.RegStmt, Expr.Reg, BOp.isComparison]) 0
  refine ⟨s', ?_, ?_⟩
  · rw [h1, Sample.Readme.descent_total]
    norm_num
  · have hx : (fun i : Fin 2 => ((0 + (i : ℕ) : ℕ) : ℝ) + 1) = fun i : Fin 2 => (i : ℝ) + 1 := by simp
    simp only at h2
    rw [hx] at h2
    refine (h2.congr_of_eventuallyEq (.of_forall fun θ => ?_)).congr_fderiv (by simp)
    · have e0 : withParams (fun a : ℕ => (a : ℝ) + 1) 0 θ 0 = θ 0 := by simpa using withParams_in (m := fun a : ℕ => (a : ℝ) + 1) (qv := 0) θ 0
      have e1 : withParams (fun a : ℕ => (a : ℝ) + 1) 0 θ 1 = θ 1 := by simpa using withParams_in (m := fun a : ℕ => (a : ℝ) + 1) (qv := 0) θ 1
      simp only [show Sample.Readme.loss.size = 1 from rfl, Finset.sum_range_one, Pi.one_apply, one_mul]
      rw [Sample.Readme.descent_total, e0, e1]

/-- **C46, the network of the README.** One call of `NN::loss(parm, grad)` of README.md "3-layer Neural Network with Jump Connection", with any non-empty data set, any parameters, any
previous contents of `grad`, any pointers, and any memory returned by the allocator: the call is defined, returns the sum of the squared residuals of the network, and `grad` then
holds its gradient with respect to the 25 parameters.  Nothing else that the caller can see changes, and all memory allocated by the call is freed. -/
theorem C46_readme_network [LawfulLinAlg] (parm grad : ℕ) {data : List (ℝ × ℝ × ℝ)} (hd : data ≠ []) {L : ReadmeNet.Alloc ℝ} {s : St ℝ} (hf : L.Fresh s)
    (hpv : ∀ i < 25, s.vok (parm + i) = true) (hpa : ∀ i < 25, s.aok (grad + i) = true) :
    ∃ s', ReadmeNet.loss parm grad data L s = some (s', ReadmeNet.squares (fun i => s.val (parm + i)) data) ∧
      HasFDerivAt (fun θ : Fin 25 → ℝ => ReadmeNet.squares θ data)
        (∑ i : Fin 25, s'.adj (grad + i) • ContinuousLinearMap.proj (R := ℝ) (φ := fun _ : Fin 25 => ℝ) i) (fun i => s.val (parm + i)) ∧
      (∀ c, s.vok c = true → s'.val c = s.val c) ∧ (∀ a, s.aok a = true → ¬ (grad ≤ a ∧ a < grad + 25) → s'.adj a = s.adj a) ∧
      s'.vok = s.vok ∧ s'.aok = s.aok := by
  obtain ⟨s', h1, h2, h3, h4, h5, h6⟩ := ReadmeNet.loss_spec (parm := parm) (grad := grad) hd hf hpv hpa
  exact ⟨s', h1, h6, h4, h5, h2, h3⟩

/-- **C46, optimisation.** An optimiser which chooses each point from everything it has seen before (as ceres does through `Evaluate`) and obtains losses and gradients from `NN::loss` sees in
every round exactly the loss of the network and its gradient; hence it visits the points it would visit with exact derivatives. -/
theorem C46_optimiser [LawfulLinAlg] (parm grad : ℕ) {data : List (ℝ × ℝ × ℝ)} (hd : data ≠ []) (next : List ((ℕ → ℝ) × ℝ × (ℕ → ℝ)) → ℕ → ℝ) {Ls : List (ReadmeNet.Alloc ℝ)}
    {s : St ℝ} (hf : ∀ L ∈ Ls, L.Fresh s) (hpv : ∀ i < 25, s.vok (parm + i) = true) (hpa : ∀ i < 25, s.aok (grad + i) = true) :
    ∃ s', ReadmeNet.optimise parm grad data next Ls [] s = some (s', ReadmeNet.history data next Ls.length []) :=
  ReadmeNet.optimise_spec hd next Ls [] hf hpv hpa

namespace ReadmeNet

/-- parameters at cells 0 to 24, old contents 7 of the gradient; buffers and caches from cell 100 on -/
noncomputable def sample (θ : ℕ → ℝ) : St ℝ := ⟨θ, fun _ => 7, fun a => decide (a < 25), fun a => decide (a < 25)⟩

@[inherit_doc sample] noncomputable def alloc : Alloc ℝ := ⟨100, 110, 200, 300, fun _ => 5, fun _ => 6⟩

/-- the data of README.md:736-739 -/
noncomputable def data5 : List (ℝ × ℝ × ℝ) := [(1, 10, 32), (2, 20, 64), (3, 30, 96), (4, 40, 128), (5, 50, 160)]

omit [HasInf ℝ] [LinAlg ℝ] in
theorem alloc_fresh (θ : ℕ → ℝ) : alloc.Fresh (sample θ) := by
  refine ⟨fun k _ => ?_, ?_, fun k hk => ?_, fun k _ => ?_, fun k _ => ?_⟩ <;> simp [alloc, sample] <;> omega

end ReadmeNet

/-- C46 applied: the data of the README, all parameters zero.  The loss is 56320; the last component of the gradient is -960, the derivative that
`C39_false_for_ceres_example` requires and the variant of the program in example/ceres_3layer_neural_net/src.cpp misses. -/
example [LawfulLinAlg] : ∃ s', ReadmeNet.loss 0 0 ReadmeNet.data5 ReadmeNet.alloc (ReadmeNet.sample 0) = some (s', 56320) ∧ s'.adj 24 = -960 ∧ s'.adj 0 = 0 := by
  obtain ⟨s', h1, h2, -⟩ := C46_readme_network 0 0 (data := ReadmeNet.data5) (by simp [ReadmeNet.data5]) (ReadmeNet.alloc_fresh 0)
    (fun i hi => by simp [ReadmeNet.sample, hi]) (fun i hi => by simp [ReadmeNet.sample, hi])
  have key : ∀ (j : Fin 25) (f : ℝ → ℝ) (g : ℝ), (∀ t, ReadmeNet.squares (Pi.single j t) ReadmeNet.data5 = f t) → HasDerivAt f g 0 → s'.adj j = g := by
    intro j f g hf hg
    have e0 : (fun i : Fin 25 => (ReadmeNet.sample 0).val (0 + i)) = Pi.single j (0 : ℝ) := by
      funext i; simp [ReadmeNet.sample]
    have h3 : HasDerivAt (fun t : ℝ => (Pi.single j t : Fin 25 → ℝ)) (Pi.single j 1) 0 := by
      rw [hasDerivAt_pi]
      intro i
      by_cases hi : i = j
      · subst hi; simpa using hasDerivAt_id' (0 : ℝ)
      · simpa [Pi.single_apply, hi] using hasDerivAt_const (0 : ℝ) (0 : ℝ)
    rw [e0] at h2
    have h4 := h2.comp_hasDerivAt (0 : ℝ) h3
    have h5 : HasDerivAt f (s'.adj j) 0 := by
      convert! h4 using 1
      · funext t; exact (hf t).symm
      · simp [_root_.sum_apply, Pi.single_apply]
    exact h5.unique hg
  refine ⟨s', ?_, ?_, ?_⟩
  · rw [h1]
    congr 2
    simp [ReadmeNet.squares, ReadmeNet.data5, ReadmeNet.predict, ReadmeNet.W1, ReadmeNet.W2, ReadmeNet.W3, ReadmeNet.c1, ReadmeNet.c2, ReadmeNet.c3, ReadmeNet.sample]
    norm_num
  · refine key 24 (fun t => (32 - t) ^ 2 + ((64 - t) ^ 2 + ((96 - t) ^ 2 + ((128 - t) ^ 2 + (160 - t) ^ 2)))) (-960) (fun t => ?_) ?_
    · simp [ReadmeNet.squares, ReadmeNet.data5, ReadmeNet.predict, ReadmeNet.W1, ReadmeNet.W2, ReadmeNet.W3, ReadmeNet.c1, ReadmeNet.c2, ReadmeNet.c3]
    · have e : ∀ y : ℝ, HasDerivAt (fun t : ℝ => (y - t) ^ 2) (-2 * y) 0 := fun y =>
        (((hasDerivAt_id' (0 : ℝ)).const_sub y).fun_pow 2).congr_deriv (by simp)
      exact ((e 32).fun_add ((e 64).fun_add ((e 96).fun_add ((e 128).fun_add (e 160))))).congr_deriv (by norm_num)
  · refine key 0 (fun _ => 56320) 0 (fun t => ?_) (hasDerivAt_const _ _)
    simp [ReadmeNet.squares, ReadmeNet.data5, ReadmeNet.predict, ReadmeNet.W1, ReadmeNet.W2, ReadmeNet.W3, ReadmeNet.c1, ReadmeNet.c2, ReadmeNet.c3]
    norm_num

/-- C46 applied: gradient descent, 100 rounds -/
example [LawfulLinAlg] : ∃ s', ReadmeNet.optimise 0 0 ReadmeNet.data5 (fun | [] => 0 | (θ, _, g) :: _ => fun i => θ i - g i / 100) (List.replicate 100 ReadmeNet.alloc) [] (ReadmeNet.sample 0) =
    some (s', ReadmeNet.history ReadmeNet.data5 (fun | [] => 0 | (θ, _, g) :: _ => fun i => θ i - g i / 100) 100 []) := by
  obtain ⟨s', h⟩ := C46_optimiser 0 0 (data := ReadmeNet.data5) (by simp [ReadmeNet.data5]) (fun | [] => 0 | (θ, _, g) :: _ => fun i => θ i - g i / 100)
    (Ls := List.replicate 100 ReadmeNet.alloc) (s := ReadmeNet.sample 0) (fun L hL => by rw [List.eq_of_mem_replicate hL]; exact ReadmeNet.alloc_fresh 0)
    (fun i hi => by simp [ReadmeNet.sample, hi]) (fun i hi => by simp [ReadmeNet.sample, hi])
  rw [List.length_replicate] at h
  exact ⟨s', h⟩

end FastAD
