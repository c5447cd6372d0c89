import Verif.Proof.Readme

/-!
# Property C63: the example programs of the README print what they announce
-/

namespace FastAD

open Matrix Readme

variable [HasInf ℝ] [LinAlg ℝ]

/-- **C63**, "Quadratic Expression Differential": for every size, every vector `x` and every matrix `Σ` (symmetric or not) the program delivers the value `xᵀΣx` and the adjoints `(Σ + Σᵀ)x`.  The only
assumption is that the allocator gives the bound expression memory that is not in use. -/
theorem C63_quadratic (n p q : ℕ) (x S : ℕ → ℝ) (qv qa : ℕ) (jv ja : ℕ → ℝ) (s : St ℝ)
    (hf : Fresh (s.allocate ⟨n, n⟩ p q x fun _ => 0) (quadraticExpr n p q S).bindSize qv qa) :
    quadratic n p q x S qv qa jv ja s =
      some ((fun i : Fin n => x i) ⬝ᵥ (matOf n n S *ᵥ fun i : Fin n => x i), List.ofFn ((matOf n n S + (matOf n n S)ᵀ) *ᵥ fun i : Fin n => x i)) := by
  rw [quadratic_run hf]
  congr 2
  · simp only [dotProduct, mulVec, matOf, of_apply, Finset.sum_range, Finset.sum_mul, Finset.mul_sum]
    rw [Finset.sum_comm]
    exact Finset.sum_congr rfl fun i _ => Finset.sum_congr rfl fun j _ => by ring
  · refine List.ext_getElem (by simp) fun i h1 h2 => ?_
    simp only [List.getElem_map, List.getElem_range, List.getElem_ofFn, mulVec, dotProduct, matOf, of_apply, Matrix.add_apply, transpose_apply, Finset.sum_range, add_mul, Finset.sum_add_distrib]
    congr 1 <;> exact Finset.sum_congr rfl fun j _ => by ring

/-- the numbers of the README: adjoints `[5.6, 10.2]` (and value 4.46) -/
example : quadratic 2 0 0 (fun k => if k = 0 then 0.5 else 0.6) (colMajor !![2, 3; 3, 6]) 2 2 (fun _ => 0) (fun _ => 0) (⟨fun _ => 0, fun _ => 0, fun _ => false, fun _ => false⟩ : St ℝ) =
    some (4.46, [5.6, 10.2]) := by
  rw [C63_quadratic _ _ _ _ _ _ _ _ _ _ ⟨fun k _ => by simp [St.allocate]; omega, fun k _ => by simp [St.allocate]; omega⟩]
  simp [dotProduct, mulVec, matOf, colMajor, Fin.sum_univ_two, List.ofFn_succ]
  norm_num

/-- **C63**, "Basic Usage": for every size, every index `i`, every `x` and `v`, with the seed 1 at index `i` and 0 elsewhere the adjoint of `x` is `cos x`, that of element `i` of `v` is
`-sin (v i)`, and that of the other elements is 0. -/
theorem C63_basic (n p q p' q' : ℕ) (i : Fin n) (x : ℝ) (v : ℕ → ℝ) (qv qa : ℕ) (jv ja : ℕ → ℝ) (s : St ℝ)
    (h : Fresh (s.allocate ⟨1, 1⟩ p q (fun _ => x) fun _ => 0) ⟨n, n⟩ p' q')
    (hf : Fresh ((s.allocate ⟨1, 1⟩ p q (fun _ => x) fun _ => 0).allocate ⟨n, n⟩ p' q' v fun _ => 0) (basicExpr (α := ℝ) n p q p' q').bindSize qv qa) :
    basic n i p q p' q' x v qv qa jv ja s = some (Real.cos x, List.ofFn (Pi.single i (-Real.sin (v i)))) := by
  rw [basic_run i.2 h hf]
  congr 2
  refine List.ext_getElem (by simp) fun j h1 h2 => ?_
  simp only [List.getElem_map, List.getElem_range, List.getElem_ofFn, Pi.single_apply, Fin.ext_iff]
  split_ifs with h
  · rw [h]
  · rfl

/-- the program of the README: `x` is 2, `v` has 5 elements, the seed is at index 2 -/
example (v : ℕ → ℝ) : basic 5 2 0 0 1 1 2 v 6 6 (fun _ => 0) (fun _ => 0) (⟨fun _ => 0, fun _ => 0, fun _ => false, fun _ => false⟩ : St ℝ) =
    some (Real.cos 2, [0, 0, -Real.sin (v 2), 0, 0]) := by
  have := C63_basic 5 0 0 1 1 2 2 v 6 6 (fun _ => 0) (fun _ => 0) ⟨fun _ => 0, fun _ => 0, fun _ => false, fun _ => false⟩
    ⟨fun k _ => by simp [St.allocate], fun k _ => by simp [St.allocate]⟩
    ⟨fun k _ => by simp [St.allocate], fun k _ => by simp [St.allocate]⟩
  refine this.trans ?_
  rw [show List.ofFn (Pi.single (2 : Fin 5) (-Real.sin (v (2 : Fin 5)))) = [0, 0, -Real.sin (v 2), 0, 0] from ?_]
  refine List.ext_getElem (by simp) fun j h1 h2 => ?_
  have hj : j < 5 := by simpa using h1
  rw [List.getElem_ofFn, Pi.single_apply]
  simp only [Fin.ext_iff]
  show (if j = 2 then -Real.sin (v 2) else 0) = _
  interval_cases j <;> simp

/-- **C63**, the "more complicated example": with `w = M v1 + v2`, `S = Σ w` and `T = w · v2`, the value is `S T`, and with `g = T + S v2` the adjoints are `Mᵀ g` (of `v1`), `g + S w` (of `v2`)
and `g v1ᵀ` (of `M`), for all sizes, vectors and matrices. -/
theorem C63_more (R C p : ℕ) (v1 v2 M : ℕ → ℝ) (qv qa : ℕ) (jv ja : ℕ → ℝ) (s : St ℝ)
    (hf : Fresh (s.allocate ⟨C + R + R * C + R + 1, C + R + R * C + R + 1⟩ p p (moreInit R C v1 v2 M) fun _ => 0) (Expr.mkGlue (more1 (α := ℝ) R C p) (more2 R C p)).bindSize qv qa)
    (x : Fin C → ℝ) (y w g : Fin R → ℝ) (S T : ℝ) (hx : x = fun j : Fin C => v1 j) (hy : y = fun i : Fin R => v2 i) (hw : w = matOf R C M *ᵥ x + y) (hS : S = ∑ i, w i) (hT : T = w ⬝ᵥ y)
    (hg : g = fun i => T + S * y i) :
    more R C p v1 v2 M qv qa jv ja s =
      some (S * T, List.ofFn ((matOf R C M)ᵀ *ᵥ g), List.ofFn (g + S • w), (List.range (R * C)).map (colMajor (vecMulVec g x))) := by
  have w1 : ∀ i : Fin R, moreW R C v1 v2 M i = w i := fun i => by
    simp [hw, hx, hy, moreW, mulVec, dotProduct, matOf, Finset.sum_range]
  have S1 : ∑ i ∈ Finset.range R, moreW R C v1 v2 M i = S := by
    rw [hS, Finset.sum_range]; exact Finset.sum_congr rfl fun i _ => w1 i
  have T1 : ∑ i ∈ Finset.range R, moreW R C v1 v2 M i * v2 i = T := by
    rw [hT, Finset.sum_range]; exact Finset.sum_congr rfl fun i _ => by rw [w1, hy]
  have g1 : ∀ i : Fin R, moreG R C v1 v2 M i = g i := fun i => by rw [moreG, S1, T1, hg, hy]
  rw [more_run hf, S1, T1]
  congr 4
  · refine List.ext_getElem (by simp) fun j h1 h2 => ?_
    simp only [List.getElem_map, List.getElem_range, List.getElem_ofFn, mulVec, dotProduct, matOf, of_apply, transpose_apply, Finset.sum_range]
    exact Finset.sum_congr rfl fun i _ => by rw [g1]; ring
  · refine List.ext_getElem (by simp) fun j h1 h2 => ?_
    have hj : j < R := by simpa using h1
    simp only [List.getElem_map, List.getElem_range, List.getElem_ofFn, Pi.add_apply, Pi.smul_apply, smul_eq_mul]
    rw [← g1, ← w1]
  · refine List.map_congr_left fun k hk => ?_
    obtain ⟨h1, h2, h3⟩ := colMajor_eq (vecMulVec g x) (List.mem_range.1 hk)
    rw [h3, vecMulVec_apply, ← g1, hx]

/-- one row, two columns: `M = (1 2)`, `v1 = (3, 4)`, `v2 = 5`: `w = 16`, `S = 16`, `T = 80`, `g = 160` -/
example : more 1 2 0 (fun k => if k = 0 then 3 else 4) (fun _ => 5) (fun k => if k = 0 then 1 else 2) 7 7 (fun _ => 0) (fun _ => 0) (⟨fun _ => 0, fun _ => 0, fun _ => false, fun _ => false⟩ : St ℝ) =
    some (1280, [160, 320], [416], [480, 640]) := by
  rw [C63_more 1 2 0 _ _ _ 7 7 _ _ _ ⟨fun k _ => by simp [St.allocate], fun k _ => by simp [St.allocate]⟩ ![3, 4] ![5] ![16] ![160] 16 80
    (by ext i; fin_cases i <;> rfl) (by ext i; fin_cases i; rfl)
    (by ext i; fin_cases i; rw [Pi.add_apply, mulVec, dotProduct, Fin.sum_univ_two]; show (16 : ℝ) = (if (0 : ℕ) + 0 * 1 = 0 then 1 else 2) * 3 + (if 0 + 1 * 1 = 0 then 1 else 2) * 4 + 5; norm_num) (by simp) (by simp [dotProduct]; norm_num) (by ext i; fin_cases i; simp; norm_num)]
  simp [dotProduct, mulVec, matOf, colMajor, List.ofFn_succ, List.range_succ]
  norm_num

end FastAD
