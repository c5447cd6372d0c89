import Verif.Proof.ConvergeProg
import Verif.Props.Converge
import Verif.Props.Program

/-!
# Convergence with growing precision: programs

Property C54 for programs with placeholders and compound assignments.
-/

open Filter Topology

namespace FastAD

section
variable [HasInf ℝ] [LinAlg ℝ]
variable {F : ℕ → Type} [∀ p, Zero (F p)] [∀ p, One (F p)] [∀ p, Add (F p)] [∀ p, Sub (F p)] [∀ p, Neg (F p)]
variable [∀ p, Mul (F p)] [∀ p, Div (F p)] [∀ p, NatCast (F p)] [∀ p, IntCast (F p)] [∀ p, Fn (F p)] [∀ p, HasInf (F p)] [∀ p, LinAlg (F p)]
variable {val : ∀ p, F p → ℝ}

/-- **C54, values of programs.** Let the same program be compiled for a sequence of arithmetics which become exact, bound in each of them, and evaluated after an arbitrary history.  If the variables other than placeholders and the
constants tend to real numbers, and the execution at the limit stays inside the domains of all operations (`InsideSeq`), then every run is defined, the returned values (scalars or arrays) tend to the mathematical value of the program, and every
variable of the program holds numbers which tend to what the statements assign. -/
theorem C54_program_values (hF : Faithful atTop F val) {rd : ∀ i, ℝ → F i} (hrd : ∀ c, Lim atTop val c fun i => rd i c)
    {p : Expr ℝ} {m : ℕ → ℝ} (hp : p.Program) (hin : InsideSeq realDoms p.flat m) {s S : ∀ i, St (F i)} {qv qa : ℕ → ℕ} {jv ja : ∀ i, ℕ → F i}
    (hal : ∀ i, p.Alive (s i).vok (s i).aok) (hf : ∀ i, Fresh (s i) p.bindSize (qv i) (qa i))
    (hS : ∀ i, Later (bindExpr (p.map (rd i)) (qv i) (qa i) (jv i) (ja i) (s i)).2 (S i))
    (hval : ∀ c ∈ (p.valCells ∪ p.constCells) \ p.placeCells, Lim atTop val (m c) fun i => (S i).val c) :
    ∃ (S' : ∀ i, St (F i)) (r : ∀ i, Ref (F i)) (y : ∀ i, ℕ → F i),
      (∀ i, evaluate (bindExpr (p.map (rd i)) (qv i) (qa i) (jv i) (ja i) (s i)).1 (S i) = some (S' i, r i) ∧ (r i).read (S' i) p.size = some (y i)) ∧
      (∀ k < p.size, Lim atTop val (p.result m k) fun i => y i k) ∧
      ∀ c ∈ p.valCells, Lim atTop val (p.exec m c) fun i => (S' i).val c := by
  have hrun := fun i => (later_prog (map_program (rd i) hp) ((map_alive _).2 (hal i)) (by rw [map_bindSize]; exact hf i) (hS i)).gevaluate (m := (S i).val)
    (K := (p.map (rd i)).known) (known_block ((map_alive _).2 (hal i)) (by rw [map_bindSize]; exact hf i)) (map_program (rd i) hp).needOk (fun _ _ => rfl) (map_program (rd i) hp).shapeOk
  choose S' r h using hrun
  have hL := related_execL (fun x => x) rd hF.related hrd p.flat p.known m (fun i => (S i).val) hp.stmts hp.needOk (by rwa [list_map_id]) fun a ha => hval a (Finset.mem_coe.1 ha)
  have hreal := exactL_real p.flat m hp.stmts hin
  simp only [← map_flat, map_id] at hL
  have hsz : sizeR p.flat = p.size := by
    have := List.getLast?_eq_getLast_of_ne_nil hp.nonempty
    rw [sizeR_last _ this, Expr.size, Expr.size, shape_last p hp.tree _ this]
  refine ⟨S', r, fun i => _, fun i => ⟨(h i).run, by rw [← map_size (rd i) p]; exact (h i).value⟩, fun k hk => ?_, fun c hc => ?_⟩
  · simp only [map_size, trunc_of_lt hk, result_tree p hp.tree hp.nonempty, ← hreal.1]
    exact hL.2 k (by rwa [hsz])
  · have hmem : c ∈ p.known ∪ places p.flat := by
      by_cases hpl : c ∈ p.placeCells
      · exact Or.inr (mem_placeCells.1 hpl)
      · exact Or.inl (Finset.mem_coe.2 (Finset.mem_sdiff.2 ⟨Finset.mem_union_left _ hc, hpl⟩))
    have := hL.1 c hmem
    rw [exec_tree, ← hreal.2]
    refine this.congr' (Eventually.of_forall fun i => congrArg (val i) ?_)
    refine ((h i).store c ?_).symm
    rw [map_known]
    rcases hmem with h | h
    · exact Or.inl h
    · refine Or.inr (mem_placeCells.1 ?_)
      rw [map_placeCells]
      exact mem_placeCells.2 h

/-- **C54, gradients of programs.** Under the same assumptions `autodiff` is defined in every arithmetic; if the initial adjoints and the seeds tend to real numbers as well, those of the assigned variables to 0, then every adjoint of a
variable that is not a placeholder tends to its initial value plus the exact partial derivative of the composed function, and a scalar value tends to the exact value. -/
theorem C54_program_gradient [LawfulLinAlg] (hF : Faithful atTop F val) {rd : ∀ i, ℝ → F i} (hrd : ∀ c, Lim atTop val c fun i => rd i c)
    {p : Expr ℝ} {m d : ℕ → ℝ} (hp : p.Program) (hin : InsideSeq realDoms p.flat m) {s S : ∀ i, St (F i)} {qv qa : ℕ → ℕ} {jv ja : ∀ i, ℕ → F i}
    (hal : ∀ i, p.Alive (s i).vok (s i).aok) (hf : ∀ i, Fresh (s i) p.bindSize (qv i) (qa i))
    (hS : ∀ i, Later (bindExpr (p.map (rd i)) (qv i) (qa i) (jv i) (ja i) (s i)).2 (S i))
    (hval : ∀ c ∈ (p.valCells ∪ p.constCells) \ p.placeCells, Lim atTop val (m c) fun i => (S i).val c)
    (hadj : ∀ a ∈ p.adjCells, Lim atTop val (d a) fun i => (S i).adj a) (hd : ∀ a ∈ p.targetAdj, d a = 0)
    {σ : ℕ → ℝ} {seed : ∀ i, ℕ → F i} (hseed : ∀ k < p.size, Lim atTop val (σ k) fun i => seed i k) :
    ∃ (S' : ∀ i, St (F i)) (r : ∀ i, Ref (F i)) (y : ∀ i, ℕ → F i),
      (∀ i, autodiff (bindExpr (p.map (rd i)) (qv i) (qa i) (jv i) (ja i) (s i)).1 (seed i) (S i) = some (S' i, r i) ∧ (r i).read (S' i) p.size = some (y i)) ∧
      (p.shape.isScl = true → Lim atTop val (p.result m 0) fun i => y i 0) ∧
      ∀ π, p.Paired π → Set.InjOn π p.adjCells → (∀ c ∈ p.constCells, c ∉ p.targetCells) → ∀ a ∈ p.adjCells, π a ∉ p.constCells → π a ∉ p.placeCells →
        ∃ D, HasDerivAt (fun t => ∑ k ∈ Finset.range p.size, σ k * p.result (Function.update m (π a) t) k) D (m (π a)) ∧
          Lim atTop val (d a + D) fun i => (S' i).adj a := by
  have hrun := fun i => (later_prog (map_program (rd i) hp) ((map_alive _).2 (hal i)) (by rw [map_bindSize]; exact hf i) (hS i)).gautodiff (m := (S i).val)
    (K := (p.map (rd i)).known) (known_block ((map_alive _).2 (hal i)) (by rw [map_bindSize]; exact hf i)) (map_program (rd i) hp).needOk (fun _ _ => rfl) (map_program (rd i) hp).shapeOk (seed i)
  choose S' r h using hrun
  have hm : ∀ a ∈ p.known, Lim atTop val (m a) fun i => (S i).val a := fun a ha => hval a (Finset.mem_coe.1 ha)
  have hin' : InsideSeq realDoms (p.flat.map (Expr.map fun x => x)) m := by rwa [list_map_id]
  have hsz : sizeR p.flat = p.size := by
    have := List.getLast?_eq_getLast_of_ne_nil hp.nonempty
    rw [sizeR_last _ this, Expr.size, Expr.size, shape_last p hp.tree _ this]
  have hL := related_execL (fun x => x) rd hF.related hrd p.flat p.known m (fun i => (S i).val) hp.stmts hp.needOk hin' hm
  have hG := related_gbackL (fun x => x) rd hF.related hrd (fun y (hy : y ≠ 0) => mul_ne_zero hy hy) (DA := (p.adjCells : Set ℕ)) (A := d) (A' := fun i => (S i).adj)
    (fun a ha => hadj a (Finset.mem_coe.1 ha)) p.flat p.known m (fun i => (S i).val) (fun x hx => ⟨hp.stmts x hx, (hp.lite x hx).2⟩) hp.needOk hin' hm (by rwa [hsz])
  simp only [← map_flat, map_id] at hL hG
  refine ⟨S', r, fun i => _, fun i => ⟨(h i).run, by rw [← map_size (rd i) p]; exact (h i).value⟩, fun hs => ?_, fun π hπ hinj hct a ha hc hpl => ⟨backL p.flat m σ d a - d a, ?_, ?_⟩⟩
  · have h1 : p.size = 1 := hp.shapeOk.size_scl hs
    have h0 : 0 < p.size := by omega
    simp only [map_size, map_shape, hs, if_true, trunc_of_lt h0, result_tree p hp.tree hp.nonempty, ← (exactL_real p.flat m hp.stmts hin).1]
    exact hL.2 0 (by rwa [hsz])
  · refine prog_partial hp ⟨hπ, hinj, hct⟩ ha hc hpl (insideSeq_reg _ _ hp.stmts (fun c => ?_) (by rwa [Function.update_eq_self])) σ d hd
    by_cases hca : c = π a
    · subst hca; simp only [Function.update_self]; exact tendsto_id
    · simp only [Function.update_of_ne hca]; exact tendsto_const_nhds
  · have h1 := hG a (Finset.mem_coe.2 ha)
    rw [gbackL_real hp (hal 0) (hf 0) m σ d ha] at h1
    rw [add_sub_cancel]
    refine h1.congr' (Eventually.of_forall fun i => congrArg (val i) ?_)
    refine ((h i).adj a ?_).symm
    rw [map_bindSize]
    exact notin_blockA (hf i) (adjCells_alive (hal i) a ha)

end

namespace ConvergeSample

variable [HasInf ℝ] [LinAlg ℝ] [∀ r, HasInf (Rounded r)] [∀ r, LinAlg (Rounded r)]

omit [∀ r, HasInf (Rounded r)] [∀ r, LinAlg (Rounded r)] in
theorem p_inside (m : ℕ → ℝ) : InsideSeq realDoms Sample.p.flat m := by
  rw [Sample.p_flat]
  simp [InsideSeq, Expr.InsideStmt, Expr.mkEq, Expr.mkOpEq, Expr.mkReduce, Expr.mkBinary, Expr.mkUnary, Expr.Inside, Exprs.Insides, realDoms, plainDoms, UOp.DomAt]

/-- the memory of the sample program in rounded arithmetic -/
noncomputable def u (i : ℕ) : St (Rounded (grid i)) := ⟨fun a => ⟨grid i (Sample.t.val a)⟩, fun _ => 0, Sample.t.vok, Sample.t.aok⟩

/-- `w = x * sin(x), v *= w, sum(v)` at `x = 1`, `v = (2, 3)`, computed with binary fractions of more and more digits: the returned value tends to `5 sin 1`, the adjoint of `x` to `5 sin 1 + 5 cos 1`. -/
example [LawfulLinAlg] :
    ∃ (S' : ∀ i, St (Rounded (grid i))) (r : ∀ i, Ref (Rounded (grid i))) (y : ∀ i, ℕ → Rounded (grid i)),
      (∀ i, autodiff (bindExpr (Sample.p.map Rounded.lit) 10 10 0 0 (u i)).1 (fun _ => 1) (bindExpr (Sample.p.map Rounded.lit) 10 10 0 0 (u i)).2 = some (S' i, r i) ∧
        (r i).read (S' i) 1 = some (y i)) ∧
      Tendsto (fun i => (y i 0).v) atTop (𝓝 (5 * Real.sin 1)) ∧ Tendsto (fun i => ((S' i).adj 0).v) atTop (𝓝 (5 * Real.sin 1 + 5 * Real.cos 1)) := by
  have hcell : ∀ c ∈ Sample.p.valCells ∪ Sample.p.constCells, c < 4 := by decide
  have hacell : ∀ c ∈ Sample.p.adjCells, c < 4 := by decide
  obtain ⟨S', r, y, h1, h2, h3⟩ := C54_program_gradient (C54_rounding grid_errs half_pow_tendsto) (rd := fun i => Rounded.lit) (fun c => grid_lim c) (p := Sample.p) (m := Sample.t.val) (d := fun _ => 0)
    Sample.p_program (p_inside _) (s := u) (S := fun i => (bindExpr (Sample.p.map Rounded.lit) 10 10 0 0 (u i)).2) (qv := fun _ => 10) (qa := fun _ => 10) (jv := fun _ => 0) (ja := fun _ => 0)
    (fun i => Sample.p_alive) (fun i => ⟨Sample.p_fresh.1, Sample.p_fresh.2⟩) (fun i => ⟨fun _ h => h, fun _ h => h⟩)
    (fun c hc => by
      refine (grid_lim (Sample.t.val c)).congr fun i => ?_
      exact congrArg Rounded.v (if_neg (by have := hcell c (Finset.mem_sdiff.1 hc).1; omega)).symm)
    (fun a ha => by
      refine (tendsto_const_nhds (x := (0 : ℝ))).congr fun i => ?_
      exact congrArg Rounded.v (if_neg (by have := hacell a ha; omega)).symm)
    (fun _ _ => rfl) (σ := fun _ => 1) (seed := fun _ _ => 1) (fun k _ => tendsto_const_nhds)
  refine ⟨S', r, y, h1, ?_, ?_⟩
  · have := h2 (by decide)
    rw [Sample.p_result] at this
    simp only [Sample.t, Lim] at this
    norm_num at this
    convert this using 2
    ring
  · obtain ⟨D, hD, hl⟩ := h3 id Sample.p_paired (Set.injOn_id _) (by decide) 0 (by decide) (by decide) (by decide)
    have hs : Sample.p.size = 1 := by decide
    have hD' : HasDerivAt (fun t => 5 * (t * Real.sin t)) D 1 := by
      have := hD
      simp only [hs, Finset.range_one, Finset.sum_singleton, Sample.p_result, one_mul, id] at this
      simp only [Sample.t] at this
      norm_num at this
      refine this.congr_of_eventuallyEq (.of_forall fun t => ?_)
      simp only
      ring
    have h4 : HasDerivAt (fun t => 5 * (t * Real.sin t)) (5 * (1 * Real.sin 1 + 1 * Real.cos 1)) 1 := ((hasDerivAt_id (1 : ℝ)).mul (Real.hasDerivAt_sin 1)).const_mul 5
    have := hD'.unique h4
    subst this
    refine Eq.subst ?_ (motive := fun z => Tendsto _ _ (𝓝 z)) hl
    ring

end ConvergeSample

end FastAD
