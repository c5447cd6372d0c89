{
 "claims": [
  {
   "property": "C01",
   "status": "proved",
   "theorems": [
    "FastAD.C01_reverse_gradient"
   ],
   "note": "All side-effect-free expressions (variables, constants, constant views, unary, binary, pow, sum, prod, norm, dot, transpose, det, log_det, if_else), any shapes. Exact real arithmetic; det/log_det under the contract LawfulLinAlg of Eigen's decompositions."
  },
  {
   "property": "C02",
   "status": "proved",
   "theorems": [
    "FastAD.C02_program_gradient"
   ],
   "note": "Programs are trees of operator, and for_each over pure expressions, placeholder assignments and compound assignments; every placeholder is assigned once before use. A right-hand side `prod(array)` or nested assignment is excluded (see C05, C06)."
  },
  {
   "property": "C03",
   "status": "proved",
   "theorems": [
    "FastAD.C03_compound_assignment",
    "FastAD.C02_program_gradient"
   ],
   "note": "Imperative meaning, restoration of the updated variables, placeholder values; the gradient part is C02_program_gradient. An operand that partially overlaps the updated variable in memory is excluded (conservatively treated as undefined)."
  },
  {
   "property": "C04",
   "status": "proved",
   "theorems": [
    "FastAD.C04_bind_size_exact"
   ],
   "note": "All expressions, including those with side effects."
  },
  {
   "property": "C05",
   "status": "partial",
   "theorems": [
    "FastAD.C05_memory_safe_partial",
    "FastAD.C05_program_memory_safe_partial",
    "FastAD.C05_false_for_nested_if_else",
    "FastAD.C05_false_for_every_nested_if_else",
    "FastAD.C05_false_for_assigned_prod"
   ],
   "note": "Proved for side-effect-free expressions and for programs of statements; two classes of API-accepted expressions violate it (witnesses; for every expression in which a node always reached by the backward pass reads the value of an if_else, differentiation is undefined)."
  },
  {
   "property": "C06",
   "status": "partial",
   "theorems": [
    "FastAD.C06_caches_disjoint_partial",
    "FastAD.C06_false_for_assigned_prod"
   ],
   "note": "Proved for all expressions without `w = prod(..)` or `w = (u op= ..)`; false for those (witness)."
  },
  {
   "property": "C07",
   "status": "proved",
   "theorems": [
    "FastAD.C07_evaluate_current"
   ],
   "note": "Any history of bind/evaluate/evaluate_adj/autodiff/assignments."
  },
  {
   "property": "C08",
   "status": "proved",
   "theorems": [
    "FastAD.C08_adjoints_accumulate"
   ],
   "note": "Any history of bind/evaluate/evaluate_adj/autodiff/assignments."
  },
  {
   "property": "C09",
   "status": "proved",
   "theorems": [
    "FastAD.C09_backward_frame",
    "FastAD.C09_program_frame"
   ],
   "note": "Pure expressions and programs."
  },
  {
   "property": "C10",
   "status": "partial",
   "theorems": [
    "FastAD.C10_linear_in_seed_partial",
    "FastAD.C10_false_at_pole"
   ],
   "note": "Linear unless a negative power of 0 is taken; there the backward pass adds -inf for every seed (witness)."
  },
  {
   "property": "C11",
   "status": "partial",
   "theorems": [
    "FastAD.C11_if_else_partial",
    "FastAD.C11_false_for_mixed_branches",
    "FastAD.C05_false_for_nested_if_else",
    "FastAD.C05_false_for_every_nested_if_else"
   ],
   "note": "if_else at the root: value and adjoints are those of the selected branch. As an operand whose value is read back it dereferences a null pointer (witness); array branches of different C++ types dangle (witness)."
  },
  {
   "property": "C12",
   "status": "proved",
   "theorems": [
    "FastAD.C12_comparison"
   ],
   "note": "All operand expressions, shapes and values; logical operators between arrays for 0/1 coefficients."
  },
  {
   "property": "C13",
   "status": "partial",
   "theorems": [
    "FastAD.C13_folding_partial",
    "FastAD.C13_false_for_empty_product",
    "FastAD.C13_false_for_mixed_branches",
    "FastAD.C13_false_after_change"
   ],
   "note": "All source expressions of the modelled builders, arbitrarily nested, any later values of the variables. False for the empty product of constants, for an array if_else of which one branch gets folded, and if a constant buffer changes after building (witnesses). Folded comparisons used as numbers (type bool) and code that does not compile are excluded."
  },
  {
   "property": "C14",
   "status": "partial",
   "theorems": [
    "FastAD.C14_forward_derivative_partial",
    "FastAD.C14_false_for_erf"
   ],
   "note": "Straight-line programs of all operators, functions, assignment and +=; every erf must be applied to an operand of tangent 1, else the result is wrong (witness)."
  },
  {
   "property": "C15",
   "status": "partial",
   "theorems": [
    "FastAD.C15_forward_eq_reverse_partial",
    "FastAD.C15_false_for_erf"
   ],
   "note": "All scalar expressions of the common functions and operators; false for erf of an operand of other tangent than 1 (witness)."
  },
  {
   "property": "C16",
   "status": "proved",
   "theorems": [
    "FastAD.C16_unary_derivative"
   ],
   "note": ""
  },
  {
   "property": "C17",
   "status": "proved",
   "theorems": [
    "FastAD.C17_pow_exact"
   ],
   "note": ""
  },
  {
   "property": "C18",
   "status": "proved",
   "theorems": [
    "FastAD.C18_prod_elements",
    "FastAD.C18_prod_range"
   ],
   "note": "Any pattern of zeros; no value is changed by the backward pass."
  },
  {
   "property": "C19",
   "status": "proved",
   "theorems": [
    "FastAD.C19_dot",
    "FastAD.C19_transpose",
    "FastAD.C19_norm",
    "FastAD.C19_sum",
    "FastAD.C01_reverse_gradient"
   ],
   "note": "All dimensions."
  },
  {
   "property": "C20",
   "status": "partial",
   "theorems": [
    "FastAD.C20_det_partial",
    "FastAD.C20_false_at_singular",
    "FastAD.C20_singular_partial"
   ],
   "note": "Value for all matrices, gradient for non-singular ones, each policy under its precondition, Eigen's decompositions assumed correct (LawfulLinAlg); false at singular matrices (witness), where nothing is added for any operand, policy and seed (C20_singular_partial)."
  },
  {
   "property": "C21",
   "status": "proved",
   "theorems": [
    "FastAD.C21_log_det"
   ],
   "note": "Each policy under its precondition, Eigen's decompositions assumed correct (LawfulLinAlg)."
  },
  {
   "property": "C22",
   "status": "partial",
   "theorems": [
    "FastAD.C22_normal_scalar",
    "FastAD.C22_normal_vec_scalar_scalar_partial",
    "FastAD.C22_normal_vec_vec_scalar",
    "FastAD.C22_normal_vec_scalar_vec",
    "FastAD.C22_normal_vec",
    "FastAD.C22_normal_matrix",
    "FastAD.C22_false_for_empty_data"
   ],
   "note": "All shapes, all histories of parameter values, any mix of constant and variable arguments; false only for constant data of length 0 with scalar mean and sigma (witness). Matrix sigma: symmetric, Eigen's decomposition assumed correct. Nodes are modelled as state machines whose operand values are inputs."
  },
  {
   "property": "C23",
   "status": "partial",
   "theorems": [
    "FastAD.C23_cauchy_scalar",
    "FastAD.C23_cauchy_scalar_scale_partial",
    "FastAD.C23_cauchy_vector_scale_partial",
    "FastAD.C23_false_for_vectors",
    "FastAD.C23_seed_twice_scalar_scale_partial",
    "FastAD.C23_seed_twice_vector_scale_partial"
   ],
   "note": "Scalar case for all seeds; vector cases for seed 0 or 1 only, because the seed is multiplied in twice (witness); what is added with any other seed is given exactly by C23_seed_twice_*."
  },
  {
   "property": "C24",
   "status": "partial",
   "theorems": [
    "FastAD.C24_uniform_scalar",
    "FastAD.C24_uniform_partial",
    "FastAD.C24_uniform_while_checks_agree_partial",
    "FastAD.C24_false_after_update",
    "FastAD.C24_false_for_expression_bound",
    "FastAD.C24_false_for_empty_data"
   ],
   "note": "Proved for all histories unless x is constant and exactly one bound is a non-constant vector; then the range check is stale (witness) or reads unbound memory (witness). Empty data with a scalar bound is undefined (witness)."
  },
  {
   "property": "C25",
   "status": "proved",
   "theorems": [
    "FastAD.C25_bernoulli_scalar",
    "FastAD.C25_bernoulli_vector_scalar",
    "FastAD.C25_bernoulli_vector",
    "FastAD.C25_vector_not_silent"
   ],
   "note": "Value for all data and p; gradient where the mass is positive and p is not a corner. C25_vector_not_silent records that the vector case hands out seeds although the value is -inf."
  },
  {
   "property": "C26",
   "status": "partial",
   "theorems": [
    "FastAD.C26_wishart_partial",
    "FastAD.C26_false_for_constant_x"
   ],
   "note": "Symmetric matrices, n constant, Eigen's decomposition assumed correct; false for constant x with variable v (witness: always -inf)."
  },
  {
   "property": "C27",
   "status": "partial",
   "theorems": [
    "FastAD.C27_value_semantics_partial",
    "FastAD.C28_expressions",
    "FastAD.C27_false_for_moved_from",
    "FastAD.C27_false_after_move_assignment"
   ],
   "note": "Any sequence of creations, copies, moves, assignments, destructions, views and writes, all shapes; expressions by C28_expressions. Not for arrays that were moved from, nor for views made before their variable was move-assigned (witnesses); views of an array that is moved follow it. Eigen's copy, resize, move and swap behaviour of dynamic matrices is assumed as documented."
  },
  {
   "property": "C28",
   "status": "proved",
   "theorems": [
    "FastAD.C28_subviews",
    "FastAD.C28_out_of_range",
    "FastAD.C28_expressions",
    "FastAD.C27_value_semantics_partial"
   ],
   "note": "Sub-views, and sub-views of sub-views, after any history; writes through them are steps of the history in C27_value_semantics_partial; C28_expressions is the statement about differentiation."
  },
  {
   "property": "C29",
   "status": "partial",
   "theorems": [
    "FastAD.C29_scalar_array_partial",
    "FastAD.C29_array_scalar_partial",
    "FastAD.C29_false_for_empty"
   ],
   "note": "Proved for non-empty arrays, both operand orders; false for empty arrays (witness)."
  },
  {
   "property": "C30",
   "status": "partial",
   "theorems": [
    "FastAD.C30_for_each_is_glue_partial",
    "FastAD.C30_anywhere_partial",
    "FastAD.C30_false_for_mixed_sizes"
   ],
   "note": "Proved when the last element has the shape of the first, for programs and, in any arithmetic, for for_each at any depth in any expression (C30_anywhere_partial: elements that store their value, not itself the right-hand side of an assignment); with vectors of different sizes for_each is undefined and the glue chain is not (witness)."
  },
  {
   "property": "C31",
   "status": "partial",
   "theorems": [
    "FastAD.C31_self_contained_partial",
    "FastAD.C31_sharing_partial",
    "FastAD.C31_false_after_destruction",
    "FastAD.C31_false_interference"
   ],
   "note": "Proved without restriction for sequences of bindings, moves, destructions, evaluations and differentiations; a copy works on the cache of its original, so the property is false for copies (two witnesses), and what does hold of copies is C31_sharing_partial. Assignment between ExprBind objects is the subject of C59."
  },
  {
   "property": "C32",
   "status": "partial",
   "theorems": [
    "FastAD.C02_program_gradient",
    "FastAD.C03_compound_assignment",
    "FastAD.C32_false_for_nested_compound"
   ],
   "note": "Consistent when compound assignments are statements of a program; false for x * (x += y) (witness)."
  },
  {
   "property": "C33",
   "status": "partial",
   "theorems": [
    "FastAD.C33_autodiff_value_partial",
    "FastAD.C33_false_for_array_compound",
    "FastAD.C33_false_for_temporary"
   ],
   "note": "Proved for scalar programs and for arrays not stored in an updated variable; false otherwise (witnesses)."
  },
  {
   "property": "C34",
   "status": "partial",
   "theorems": [
    "FastAD.C02_program_gradient",
    "FastAD.C34_false_under_comparison"
   ],
   "note": "Assignments that are statements propagate (C02); an assignment nested in a comparison does not (witness)."
  },
  {
   "property": "C35",
   "status": "proved",
   "theorems": [
    "FastAD.C35_placeholder_sensitivity"
   ],
   "note": ""
  },
  {
   "property": "C36",
   "status": "proved",
   "theorems": [
    "FastAD.C36_constant_data"
   ],
   "note": "Scalar mean with scalar or vector sigma (the nodes with shortcuts); any history of parameter values."
  },
  {
   "property": "C37",
   "status": "proved",
   "theorems": [
    "FastAD.C37_model_gradient",
    "FastAD.C37_model_current",
    "FastAD.C37_history_irrelevant"
   ],
   "note": "Inside expressions the data members of the nodes are recomputed; C37_history_irrelevant justifies this for constants that hold their values (a constant view of data that never change is represented by the constant)."
  },
  {
   "property": "C38",
   "status": "proved",
   "theorems": [
    "FastAD.C38_pullback"
   ],
   "note": "All programs and all values of the adjoints."
  },
  {
   "property": "C39",
   "status": "partial",
   "theorems": [
    "FastAD.C39_data_loop_partial",
    "FastAD.C39_readme_regression",
    "FastAD.C39_ceres_gradient",
    "FastAD.C39_false_for_ceres_example",
    "FastAD.C39_ceres_with_resets",
    "FastAD.C39_without_resets"
   ],
   "note": "Loss, for all programs and data. Gradient if the adjoints of the assigned variables (placeholders and targets of compound assignments) are reset in every round, in particular for pure expressions such as those of the README. False for example/ceres_3layer_neural_net/src.cpp, which does not reset them (C39_ceres_gradient computes what it adds instead; witness with the data of the example); right again with the resets. C39_without_resets says, for every program and any choice of resets, what the loop adds: each round pulls back the adjoints left by the rounds before."
  },
  {
   "property": "C40",
   "status": "proved",
   "theorems": [
    "FastAD.C40_training"
   ],
   "note": "Any program, data, update rule and number of steps, under the conditions of C39_data_loop_partial for the gradient; scalar losses."
  },
  {
   "property": "C41",
   "status": "proved",
   "theorems": [
    "FastAD.C41_black_scholes"
   ],
   "note": "Real numbers, positive parameters; the payoffs are integrated against the normal distribution of Mathlib."
  },
  {
   "property": "C42",
   "status": "proved",
   "theorems": [
    "FastAD.C42_reproducible",
    "FastAD.C42_exact",
    "FastAD.C42_autodiff_value",
    "FastAD.C42_product_not_restored"
   ],
   "note": "Arbitrary scalar type without laws. Side-effect-free expressions. The model fixes the order in which Eigen sums the coefficients of an array (left to right). The statement about the value returned by autodiff is restricted to scalar expressions and arrays that are not iterated products or if_else; C42_product_not_restored shows that an array-valued iterated product is restored only up to rounding."
  },
  {
   "property": "C43",
   "status": "partial",
   "theorems": [
    "FastAD.C43_inline_partial",
    "FastAD.C43_false_for_cauchy"
   ],
   "note": "All programs of placeholder assignments whose right-hand sides are operations (not bare variables, constants or if_else), adjoints of the placeholders zero before the pass. False if a right-hand side contains a Cauchy density of a vector, whose backward pass is not linear in the seed (witness); also excluded: negative powers of 0 in right-hand sides."
  },
  {
   "property": "C44",
   "status": "proved",
   "theorems": [
    "FastAD.C44_rebind",
    "FastAD.C44_user_storage",
    "FastAD.C44_storage_irrelevant"
   ],
   "note": "All programs. C44_rebind holds for every expression. Values of arrays stored in a variable that the program itself updates are excluded as in C33 (Stable)."
  },
  {
   "property": "C45",
   "status": "proved",
   "theorems": [
    "FastAD.C45_layout",
    "FastAD.C45_contiguous_gradient",
    "FastAD.C45_readme_advanced"
   ],
   "note": "All shapes and programs, at regular points. The README program is written with the bind of the code, since bind_adj and the constructor used there do not exist."
  },
  {
   "property": "C46",
   "status": "proved",
   "theorems": [
    "FastAD.C46_data_gradient",
    "FastAD.C46_readme_network",
    "FastAD.C46_optimiser"
   ],
   "note": "C46_data_gradient: all programs at regular points, adjoints of assigned variables reset in every round. C46_readme_network and C46_optimiser: no conditions on data or parameters except that there is at least one row."
  },
  {
   "property": "C47",
   "status": "proved",
   "theorems": [
    "FastAD.C47_reproducible",
    "FastAD.C47_exact",
    "FastAD.C47_autodiff_value"
   ],
   "note": "Arbitrary scalar type without laws, all programs, all histories. The model fixes the order in which Eigen sums the coefficients of an array (left to right). C47_autodiff_value is restricted to scalar programs: arrays are returned by reference to memory that the backward pass may write (C33, C42_product_not_restored)."
  },
  {
   "property": "C48",
   "status": "partial",
   "theorems": [
    "FastAD.C48_unbound",
    "FastAD.C48_values_needed_partial",
    "FastAD.C48_adjoints_needed_partial",
    "FastAD.C48_exactly_partial",
    "FastAD.C48_false_for_if_else",
    "FastAD.C48_false_for_comparison",
    "FastAD.C48_false_for_empty_sum"
   ],
   "note": "False of the code for if_else (storage for both branches), for operands of comparisons and of other nodes that the backward pass does not reach, and for empty iterated sums and products (adjoint cells never used); witnesses proved, everything else covered."
  },
  {
   "property": "C49",
   "status": "proved",
   "theorems": [
    "FastAD.C49_one",
    "FastAD.C49_placeholders",
    "FastAD.C49_squares",
    "FastAD.C49_adjoints_of_sums"
   ],
   "note": "All well-formed expressions and programs of the form w1 = r1, ..., wn = rn, e. The adjoints of the placeholders themselves are counted only where the right-hand side has adjoints of its own; C49_adjoints_of_sums shows that this is needed."
  },
  {
   "property": "C50",
   "status": "proved",
   "theorems": [
    "FastAD.C50_evaluate",
    "FastAD.C50_evaluate_real",
    "FastAD.C50_evaluate_adj_safe",
    "FastAD.C50_autodiff_safe",
    "FastAD.C50_false_for_gradient_of_reassigned",
    "FastAD.C50_false_for_gradient_of_used_before"
   ],
   "note": "All trees of well-formed statements, without any condition on their order. The last two theorems are witnesses that the gradient, which is not part of this property, is wrong when a placeholder is assigned twice or used before it is assigned."
  },
  {
   "property": "C51",
   "status": "proved",
   "theorems": [
    "FastAD.C51_independent",
    "FastAD.C51_any_interleaving",
    "FastAD.C51_false_for_shared_placeholder"
   ],
   "note": "All trees of well-formed statements, all sequences of calls; the interleaving is of whole calls. The last theorem is a witness that the placeholders must be separate."
  },
  {
   "property": "C52",
   "status": "partial",
   "theorems": [
    "FastAD.C52_followed_partial",
    "FastAD.C52_not_followed",
    "FastAD.C52_likelihood_loop"
   ],
   "note": "Holds exactly for the constants that the constructor does not use; for every array constant that it uses there is a witness that the value is stale. Loops over data for models whose constant views are at the former positions."
  },
  {
   "property": "C53",
   "status": "proved",
   "theorems": [
    "FastAD.C53_block_gradient",
    "FastAD.C53_block_evaluate",
    "FastAD.C53_with_for_each"
   ],
   "note": "All expressions in which every placeholder is assigned once and used in its scope; blocks of placeholder assignments (compound assignments inside nested blocks are not covered; for_each in C53_with_for_each), whose result is not a constant or an if_else; gradient at regular points; if_else operands restricted as in C01."
  },
  {
   "property": "C54",
   "status": "proved",
   "theorems": [
    "FastAD.C54_converges",
    "FastAD.C54_rounding",
    "FastAD.C54_floating_point",
    "FastAD.C54_program_values",
    "FastAD.C54_program_gradient",
    "FastAD.ConvergeSample.C54_fails_at_zero_factor"
   ],
   "note": "Expressions of the kinds named in the statement, and programs of them. The last theorem is a witness that the condition on the factors of products is needed."
  },
  {
   "property": "C55",
   "status": "partial",
   "theorems": [
    "FastAD.C55_directional_partial",
    "FastAD.C55_hessian_partial",
    "FastAD.C55_hessian_symmetric_partial",
    "FastAD.C55_program_directional_partial",
    "FastAD.HessianSample.C55_false_for_erf",
    "FastAD.HessianSample.C55_false_for_placeholders"
   ],
   "note": "Missing: erf (false), and the loop for programs with placeholders (false; single passes over programs are covered). Expressions of neg, sin, cos, tan, asin, acos, atan, exp, log, sqrt, sigmoid, + - * /, dot, transpose, sum, norm. hessian.hpp uses the interface of an earlier version (Vec, exgen) and is not included by the library; the loop is modelled with a bound expression, and operations which do not compile for ForwardVar for want of overloads are given their evident meaning (DESIGN.md, 37). The last two theorems are the witnesses."
  },
  {
   "property": "C56",
   "status": "partial",
   "theorems": [
    "FastAD.C56_pointer_arithmetic_partial",
    "FastAD.C56_exactly_partial",
    "FastAD.C56_when_defined",
    "FastAD.C56_false_for_value_only",
    "FastAD.PointerSample.C56_false_for_assignment"
   ],
   "note": "False for every expression with a node that keeps no adjoint (C56_false_for_value_only) and for some assignments w = e (C56_false_for_assignment). C56_exactly_partial says for which expressions, with assignments anywhere, it is true, when the cells right behind the caches are not allocated. Whenever binding is defined, the nodes get the addresses of the model (C56_when_defined). Adjacent allocated cells count as one array."
  },
  {
   "property": "C57",
   "status": "proved",
   "theorems": [
    "FastAD.C57_error_bound",
    "FastAD.C57_floating_point",
    "FastAD.C57_program_error_bound",
    "FastAD.C57_model_error_bound",
    "FastAD.C57_forward_error_bound"
   ],
   "note": "Expressions of the kinds named in the statement and programs of them. The condition on the factors of products is needed (C54_fails_at_zero_factor)."
  },
  {
   "property": "C58",
   "status": "proved",
   "theorems": [
    "FastAD.C58_example_main"
   ],
   "note": "The numbers of the program are parameters. Destruction of the local variables and buffers at the end of each function is left out."
  },
  {
   "property": "C59",
   "status": "partial",
   "theorems": [
    "FastAD.C59_scalar_partial",
    "FastAD.C59_bound_partial",
    "FastAD.C59_false_for_array_expressions",
    "FastAD.C59_false_for_array_views",
    "FastAD.C59_false_for_bound_arrays",
    "FastAD.C59_false_after_destruction"
   ],
   "note": "Proved for scalar expressions. False of the code for arrays (elements are copied instead of the pointers; undefined behaviour for array expressions that are not bound) and for bound expressions once the object assigned from is gone; witnesses proved."
  },
  {
   "property": "C60",
   "status": "partial",
   "theorems": [
    "FastAD.C60_views_partial",
    "FastAD.C60_false_for_variables",
    "FastAD.C60_false_variables_are_copied",
    "FastAD.C60_false_for_array_views",
    "FastAD.C60_false_for_updated_views",
    "FastAD.C60_false_views_are_renamed",
    "FastAD.C60_false_for_updated_target"
   ],
   "note": "Proved for assignments between scalar VarViews that are not changed afterwards. False of the code for Var objects, views of arrays, and views changed afterwards; witnesses proved. Which overload is chosen was read off the code."
  },
  {
   "property": "C61",
   "status": "partial",
   "theorems": [
    "FastAD.C61_programs_partial",
    "FastAD.C61_false_for_moved_scalars",
    "FastAD.C61_false_for_reused_storage",
    "FastAD.C61_false_after_move_assignment"
   ],
   "note": "Any program of variables, views and bound expressions (well-formed expressions as in C01 and sequences of statements with placeholders and compound assignments as in C02), as long as no scalar inside a living expression is moved away and destroyed and no array inside one is move-assigned (false of the code, witnesses proved). Gradient at regular points, for programs when the adjoints of the assigned variables are zero."
  },
  {
   "property": "C62",
   "status": "proved",
   "theorems": [
    "FastAD.C62_programs",
    "FastAD.C62_objects"
   ],
   "note": "Legal as in C61 (programs of variables, views and bound expressions) and in C31 (copies and moves of bound expressions). The models check that freed memory is allocated, not that a pointer given to free is the start of a block."
  },
  {
   "property": "C63",
   "status": "proved",
   "theorems": [
    "FastAD.C63_quadratic",
    "FastAD.C63_basic",
    "FastAD.C63_more"
   ],
   "note": "Numbers and sizes are parameters; the random values and the unspecified initialisation of the programs are arbitrary values. Over the reals. In the more complicated example the five variables are placed one after the other. Assumption: the memory of the bound expression is not in use."
  },
  {
   "property": "C64",
   "status": "proved",
   "theorems": [
    "FastAD.C64_sum_benchmark",
    "FastAD.C64_prod_benchmark",
    "FastAD.C64_stddev_benchmark",
    "FastAD.C64_repeated_constants",
    "FastAD.C64_resets_missing"
   ],
   "note": "Numbers of variables and rounds and the values are parameters. Over the reals. The variables and placeholders are placed one after the other. Assumption: the memory of the bound expression is not in use."
  },
  {
   "property": "C65",
   "status": "partial",
   "theorems": [
    "FastAD.C65_sum_of_views_partial",
    "FastAD.C65_prod_of_views_partial",
    "FastAD.C65_false_for_sums_of_copies",
    "FastAD.C65_false_for_products_of_copies",
    "FastAD.C65_ad_benchmark_partial",
    "FastAD.C65_false_of_ad_benchmark"
   ],
   "note": "True for functions that return views; false for functions that return Var objects by value, which the node copies: shown for every number of scalar variables, for sum and prod, and for BM_test1_fastad, whose values are right in every round and whose adjoints are computed exactly. Over the reals. Copies made on the way into the bound object are left out. Assumption: the memory of the copies and of the bound expression is not in use."
  },
  {
   "property": "C66",
   "status": "proved",
   "theorems": [
    "FastAD.C66_normal_benchmark",
    "FastAD.C66_values_not_random"
   ],
   "note": "Exact arithmetic and the contract LawfulLinAlg of Eigen's LLT. Eigen's Random() on the maps is read as returning a discarded expression; its assertion about the size in debug builds is not modelled. The benchmark's intention, a random point, is not met (DESIGN, disagreement 46)."
  },
  {
   "property": "C67",
   "status": "proved",
   "theorems": [
    "FastAD.C67_integration_tests"
   ],
   "note": "Exact arithmetic in place of EXPECT_DOUBLE_EQ. The arrays of the fixture are placed one after the other. function_vector_complex, which checks nothing, is left out. Assumption: the memory of the buffers is not in use."
  },
  {
   "property": "C68",
   "status": "proved",
   "theorems": [
    "FastAD.C68_overlapping_parts"
   ],
   "note": "Exact arithmetic. Vector and scalar are placed one after the other. Assumption: the memory of the cache is not in use."
  },
  {
   "property": "C69",
   "status": "proved",
   "theorems": [
    "FastAD.C69_nested_compound_assignments"
   ],
   "note": "Exact arithmetic. Vector and scalar are placed one after the other. The scalars 0 and 2, for which the last statement divides by 0, are excluded. Assumption: the memory of the cache is not in use."
  }
 ]
}