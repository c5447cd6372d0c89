# Design: a Lean 4 model of FastAD and what is proved about it

Source: `/repo` (FastAD, header-only C++17).  Model, specification and proofs: `/verif/lean`.
`properties.jsonl` lists the properties, `MANIFEST.json` the theorems claimed for each, `seeded/LOG.jsonl` the mutation tests.
Paths of C++ files below are relative to `/repo/include/fastad_bits`.

## 1. Structure

Four layers, each in its own directory under `lean/Verif`:

* `Model/` — the C++ code, transcribed.  Every definition carries a comment with the file and lines it models and says where it simplifies.
* `Spec/` — what the user expects, written without reference to caches, views or evaluation order: real functions, Mathlib derivatives,
  sets of addresses, abstract histories.
* `Proof/` — lemmas connecting the two.
* `Props/` — the property theorems (names `Cnn_...`), each followed by `example`s that instantiate its hypotheses with concrete data.

### Model

| module | C++ code |
|---|---|
| `Scalar` | operations the templates use on their value type (`Fn`, `HasInf`, `LinAlg`) |
| `Ops` | functors of `reverse/core/unary.hpp`, `binary.hpp`, `eq.hpp`, `pow.hpp` |
| `StatOp` | which log-density node types exist (`reverse/stat/*.hpp`: partial specialisations) |
| `Memory` | value and adjoint heaps, views (`reverse/core/value_view.hpp`, `var_view.hpp`), reads and writes with undefined behaviour |
| `Expr` | node types and their constructors, `bind_cache`, `bind_cache_size`, `single_bind_cache_size` |
| `Eval` | `feval` and `beval` of every node |
| `Api` | `bind`, `evaluate`, `evaluate_adj`, `autodiff` (`bind.hpp`, `eval.hpp`) |
| `Session` | sequences of API calls on several bound expressions, interleaved with assignments to variables |
| `Objects` | copies, moves and destruction of `ExprBind` objects (`bind.hpp:18-41`) |
| `Assign` | assignment between views, variables, expressions and `ExprBind` objects, and what `w = x` means in a program |
| `World` | whole programs: variables, views and bound expressions together |
| `Build` | the overloaded operators and functions the user calls, with constant folding |
| `Stat` | the log-density nodes as state machines with their data members |
| `Var` | `Var` objects: owned storage, copy, move, assignment, `rebind`, sub-views (`var.hpp`, `var_view.hpp`) |
| `Forward` | `forward/core/dualnum.hpp`, `forward.hpp` |
| `Pointer` | `bind_cache` with every pointer computation checked |
| `Hessian` | `reverse/core/hessian.hpp`: forward variables as value type of the reverse mode, the loop over the variables |
| `Loop` | loops over rows of data and training loops (README "Simple Linear Regression Model", `example/ceres_3layer_neural_net`) |
| `Ceres` | the network of `example/ceres_3layer_neural_net/src.cpp` |
| `BlackScholes`, `Example` | the programs `example/black_scholes.cpp`, `example/main.cpp` |
| `Params` | variables bound one after the other to one block of memory (README "Advanced Usage") |
| `ReadmeNet` | `NN::loss` of README "3-layer Neural Network" with arbitrary pointers, and an optimiser that calls it |
| `Readme` | the programs of README "Basic Usage" (both) and "Quadratic Expression Differential", with numbers and sizes as parameters |
| `Benchmark` | `BM_sumnode_fastad` and `BM_prod_fastad` of the benchmarks, with the numbers of variables and rounds and the values as parameters |
| `VarCopies` | `ad::sum`, `ad::prod` over a range of `Var`s whose function returns the element by value: the copies that the node owns; `BM_test1_fastad` of `benchmark/ad_benchmark.cpp` |
| `RepeatedStddev` | `BM_normal_repeated_stddev` and `BM_repeated_constants` of `benchmark/constant_eager_benchmark.cpp`, with the folding of constants of `Build` |
| `NormalBench` | `make_cov` and the two benchmarks of `benchmark/normal_benchmark.cpp`, the views being bound with checked pointer arithmetic |
| `IntTest` | the tests of `test/integration/ad_inttest.cpp` that check something, with the values of the fixture as parameters |
| `HeadTail` | the test `leaf_opeq_head_tail` of `test/integration/node_inttest.cpp`, with the vector as a parameter |
| `ManyNested` | the test `leaf_opeq_many_nested` of `test/integration/node_inttest.cpp`, with vector and scalar as parameters |

### Memory and undefined behaviour

The state `St α` has two heaps (values and adjoints), each a total map from addresses to scalars together with the set of allocated addresses.
A view holds a shape and two pointers that may be null.  Every node carries its own view, initially null, like the C++ base class
`ValueAdjView`; `bind` fills it in.  Reading or writing through a null pointer or outside the allocated cells yields `none`, the distinct
outcome *undefined behaviour*; theorems that say `= some ...` therefore include memory safety.  Contents of fresh memory are universally
quantified (`jv`, `ja`), and so are the addresses of the allocated buffers (`qv`, `qa`): nothing may depend on them.
`feval` returns a *reference* (pointer, or the value for scalars returned by value), as the C++ does; operands are read when the C++ reads
them.  Seeds that the C++ passes as unevaluated Eigen expressions are evaluated when the operand's `beval` starts, scalar seeds eagerly.

### Specification

| module | content |
|---|---|
| `RealScalar` | the reals as value type; contract `LawfulLinAlg` of Eigen's decompositions; `erf` as an integral |
| `Exact` | `Expr.exact e m k`: the same as `denote`, computed node by node with the operations of an arbitrary scalar type |
| `ExactProg` | execution of a list of statements with the operations of an arbitrary scalar type |
| `Denote` | `Expr.denote e m k`: coefficient `k` of the function denoted by `e` at the store `m`; well-formedness `Expr.WF` (what compiles and passes the run-time assertions) and `Expr.NWF` (the same, with blocks of placeholder assignments as operands) |
| `Density` | log-densities without normalising constants that do not depend on the operands, from Mathlib's `gaussianPDFReal` etc. or written out |
| `Regular` | points at which the denoted function is differentiable (`log` at 0, `sqrt` at 0, poles, ...) |
| `Leaves`, `Regions` | variables of an expression, cells of the cache regions |
| `Session`, `Objects`, `Var` | abstract histories: what a user who knows nothing of caches expects after a sequence of calls |
| `Program` | imperative meaning of placeholder programs (`run`), assigned-before-use conditions |
| `Inside`, `InsideProg`, `ForwardMap`, `Faithful`, `Rate`, `Rounded` | the same expression over another value type; evaluation inside the domains of all operations; families of arithmetics that become exact; arithmetic with rounding |
| `Pointer` | nodes that keep no adjoint; expressions without assignments |
| `Peak` | how far the pointers of `bind_cache` move; assignments with right-hand sides of the size of the variable |
| `NestedIf` | expressions in which a node that the backward pass always reaches reads the value of an `if_else` |
| `Hessian` | expressions that can be differentiated twice |
| `Blocks` | blocks of placeholder assignments as operands: free variables, scopes, no placeholder assigned twice |
| `Inline` | the expression a user writes who uses no placeholders: substitution of right-hand sides |
| `Needed` | expressions all of whose nodes are reached by the forward pass, or by the backward pass |
| `InlineSize` | every placeholder is used later |
| `Storage` | buffers with room for the caches; differentiating a list of bound expressions one after the other |
| `Interleave` | calls on several bound programs in any order; programs that do not get into each other's way |
| `Params` | parameters and working area of a program; memory as a function of the parameter vector |
| `ReadmeNet` | the network with matrices and vectors of Mathlib, sum of squares, gradient, exact history of an optimiser |
| `Benchmark` | the two functions `f_test` that the benchmarks differentiate by finite differences |
| `VarCopies` | `f_test1` of `benchmark/ad_benchmark.cpp` |
| `RepeatedStddev` | the log-likelihood of `benchmark/constant_eager_benchmark.cpp` |
| `NormalBench` | the covariance matrices of `benchmark/normal_benchmark.cpp` |
| `IntTest` | the numbers that `test/integration/ad_inttest.cpp` expects |
| `HeadTail` | the numbers that `leaf_opeq_head_tail` expects, for any size |
| `ManyNested` | the numbers that `leaf_opeq_many_nested` expects, for any size |
| `NoReset` | one round from arbitrary adjoints as the gradient of adjoints times final values plus seed times result; sequences of rounds |
| `Loop`, `Ceres` | total loss, exact gradient steps; the network as a formula |
| `Example` | the function announced by `example/main.cpp` |
| `Assign` | expressions of one type, scalar expressions, what `w = x` is meant to do, programs in which views are not changed after being assigned |
| `World` | the same programs without memory: variables are values, a bound expression (or sequence of statements) is an expression of named variables; evaluating executes its assignments, differentiating undoes the compound ones |
| `WriteOut` | an expression with the elements of every `for_each`, at any depth, joined by `operator,` |
| `Ownership` | who owns which memory cell: the user, an existing variable, an existing bound object |
| `BlackScholes` | option prices as discounted expectations under Mathlib's normal distribution |
| `Nodes`, `Forward`, `Stat`, `Build`, `Joint` | the notions needed to state the properties of single nodes, forward mode, log-density nodes, folding, statistical models |

Derivatives are always Mathlib's `HasDerivAt`/`HasFDerivAt` of these functions, for an arbitrary differentiable parametrisation of the store.

## 2. Simplifications (all deliberate)

* Numbers are exact: theorems other than C42, C47-C51, C54 and C57 are about `ℝ`, not IEEE doubles.  No rounding, NaN, or overflow; no overflow of `size_t`/`int64_t`.  `+∞` is an arbitrary
  real `inf` with no assumed property, so theorems about `-inf` say exactly which branch the code takes.
  C42 and C47-C51 are about every scalar type, hence also about doubles with rounding and NaN; there the order of summation of Eigen's reductions is
  taken to be from left to right.
  C54 and C57 are about exact operations followed by rounding; the result of an overflow may be any number (in place of infinity and NaN), and the theorems say that it does not occur if the range of exponents is large enough.
  The literal `1.1283791670955126` (`unary.hpp`, `erf`) is `2/√π`.
* Eigen is trusted: coefficient-wise operations and products have their mathematical meaning.  `FullPivLU`, `LDLT`, `LLT` are abstract
  operations; results about them assume the contract `LawfulLinAlg` (determinant, inverse, positive definiteness test are right).  LLT/LDLT
  read the lower triangle only, so gradients of those policies are stated for symmetric matrices moving along symmetric curves.
* `det`/`log_det` recompute the inverse in `beval` instead of keeping it in a member; `feval` and `beval` see the same operand value.
* Value and adjoint storage are separate address spaces; cells are allocated one by one (the end of one buffer may be adjacent to another).
* `x op= y` with `y` a partially overlapping view of `x` is `none` (the Eigen result depends on the traversal order).
* C++ typing is modelled by well-formedness predicates.  What does not compile (`2 * x` with an `int`, `transpose` of a constant, ranges of
  constant matrices, ...) is not modelled.
* Log-density nodes are state machines whose operand values are inputs (`Model/Stat`); inside expressions (`RedOp.stat`) their data members
  are recomputed at each pass.  `C52_followed_partial` proves that the two agree as long as the constants used by the constructor do not change.
  `StatOp.Fits` admits constant *views* where the node reads them anew; elsewhere a view is represented by the constant with the same data, which is
  right as long as the viewed data never change.
* `Build` has one number type; comparisons folded to `bool` may only be used as conditions (`Src.Ok`).
* `Objects`: objects have names instead of addresses; a moved-from expression is unusable.
* `Var`, `World`, `Objects`: freeing memory that is not allocated is undefined behaviour; it is not checked that the pointer is the start of a block.  `ReadmeNet` frees without this check.
* `World`: the views made when an expression is written have names; bound expressions are evaluated, differentiated, moved and destroyed; the destruction of the empty object left by a move is left out (their copies and the use of moved objects are in `Objects`).
* `Assign`: assignment from an lvalue; constant views and lists of different lengths are left out; the types of two expressions agree if their nodes and the kinds of their shapes do.
* `Var`: value and adjoint halves are two copies of the same structure; Eigen's copy, resize, move and swap of dynamic matrices as documented.
* Forward mode: straight-line programs of the overloaded operators and functions.
* `reverse/core/hessian.hpp` is commented out of `reverse/core.hpp` and uses an interface that no longer exists; `Model/Hessian` models its loop with a bound expression in place of the generator.

## 3. Trusted base

The Lean 4.33.0 kernel; the axioms `propext`, `Classical.choice`, `Quot.sound` (no others, no `sorry`, no `native_decide`).
The reading of the C++ recorded in `Model/`.  Eigen and libm as stated above.  The specification modules.

## 4. Properties: how each is stated and proved

*proved*: as in `properties.jsonl`.  *partial*: the theorem ending in `_partial` has an extra hypothesis; for each of these the excluded
case is shown to be false by a `_false_` theorem with a concrete witness, unless said otherwise.

| id | status | theorems | proof |
|---|---|---|---|
| C01 | proved | `C01_reverse_gradient` | (i) the memory machine adds the functional reverse sweep `grad` to the adjoints (`Proof/Beval`, induction over bound trees); (ii) `grad` is the vector-Jacobian product of `denote` (`Proof/Calculus`), for every differentiable parametrisation of the store |
| C02 | proved | `C02_program_gradient` | the covector in the adjoint heap is pulled back through each statement (`Proof/ProgCalc`); trees of `operator,` and `for_each` are flattened (`Proof/Sequence`, `Program`) |
| C03 | proved | `C03_compound_assignment`, `C02_program_gradient` | as C02; values restored by `beval` |
| C04 | proved | `C04_bind_size_exact` | induction over all expressions, with side effects |
| C05 | partial | `C05_memory_safe_partial`, `C05_program_memory_safe_partial`, `C05_false_for_nested_if_else`, `C05_false_for_every_nested_if_else`, `C05_false_for_assigned_prod` | well-boundness predicate established by `bind`; evaluation of well-bound trees returns `some` |
| C06 | partial | `C06_caches_disjoint_partial`, `C06_false_for_assigned_prod` | regions of the nodes as lists of cells; `Nodup` by induction |
| C07 | proved | `C07_evaluate_current` | invariant over sessions of any length |
| C08 | proved | `C08_adjoints_accumulate` | invariant over sessions of any length |
| C09 | proved | `C09_backward_frame`, `C09_program_frame` | frame clauses of the inductions behind C01, C02 |
| C10 | partial | `C10_linear_in_seed_partial`, `C10_false_at_pole` | linearity of `grad` (`Proof/Linear`) |
| C11 | partial | `C11_if_else_partial`, `C11_false_for_mixed_branches` (and `C05_false_for_nested_if_else`, `C05_false_for_every_nested_if_else`) | unfolding the root node, C01 machinery for the branch |
| C12 | proved | `C12_comparison` | case analysis on the operators, all values and shapes |
| C13 | partial | `C13_folding_partial`, `C13_false_for_empty_product`, `C13_false_for_mixed_branches`, `C13_false_after_change` | the built tree and the tree without folding have the same meaning and gradient (induction over source expressions) |
| C14 | partial | `C14_forward_derivative_partial`, `C14_false_for_erf` | logical relation between dual numbers and differentiable functions |
| C15 | partial | `C15_forward_eq_reverse_partial`, `C15_false_for_erf` | direct comparison, also at points where neither is the derivative |
| C16 | proved | `C16_unary_derivative` | `HasDerivAt` for each operator |
| C17 | proved | `C17_pow_exact` | strong induction on the exponent (fast exponentiation) |
| C18 | proved | `C18_prod_elements`, `C18_prod_range` | leave-one-out products, any pattern of zeros |
| C19 | proved | `C19_dot`, `C19_transpose`, `C19_norm`, `C19_sum` | finite sums, Mathlib matrices |
| C20 | partial | `C20_det_partial`, `C20_false_at_singular`, `C20_singular_partial` | Jacobi's formula from multilinearity |
| C21 | proved | `C21_log_det` | Jacobi's formula |
| C22 | partial | `C22_normal_*`, `C22_false_for_empty_data` | invariants of the nodes' members over any history of parameter values; calculus per shape |
| C23 | partial | `C23_cauchy_*`, `C23_false_for_vectors`, `C23_seed_twice_*` | as C22; vector cases: right for seeds 0 and 1, exact formula for the others |
| C24 | partial | `C24_uniform_*`, three `C24_false_*` | as C22 |
| C25 | proved | `C25_bernoulli_*`, `C25_vector_not_silent` | as C22 |
| C26 | partial | `C26_wishart_partial`, `C26_false_for_constant_x` | as C22, calculus of symmetric matrices |
| C27 | partial | `C27_value_semantics_partial`, `C28_expressions`, `C27_false_for_moved_from`, `C27_false_after_move_assignment` | simulation between the storage model and variables with value semantics |
| C28 | proved | `C28_subviews`, `C28_out_of_range`, `C28_expressions` | same simulation |
| C29 | partial | `C29_scalar_array_partial`, `C29_array_scalar_partial`, `C29_false_for_empty` | C01 machinery for both operand orders |
| C30 | partial | `C30_for_each_is_glue_partial`, `C30_anywhere_partial`, `C30_false_for_mixed_sizes` | loop refined to nested glue; at any depth by showing that binding commutes with writing out and that the copy made by a bound glue node is a self-assignment (`Proof/WriteOut`) |
| C31 | partial | `C31_self_contained_partial`, `C31_sharing_partial`, `C31_false_after_destruction`, `C31_false_interference` | invariant over object histories |
| C32 | partial | `C02_program_gradient`, `C03_compound_assignment`, `C32_false_for_nested_compound` | |
| C33 | partial | `C33_autodiff_value_partial`, `C33_false_for_array_compound`, `C33_false_for_temporary` | |
| C34 | partial | `C02_program_gradient`, `C34_false_under_comparison` | |
| C35 | proved | `C35_placeholder_sensitivity` | pull-back invariant of C02 stopped in the middle |
| C36 | proved | `C36_constant_data` | equality of the two code paths for every history |
| C37 | proved | `C37_model_gradient`, `C37_model_current`, `C37_history_irrelevant` | sums of log-density nodes over arbitrary operand expressions, via C01 |
| C38 | proved | `C38_pullback` | pull-back invariant of C02 started from arbitrary adjoints |
| C39 | partial | `C39_data_loop_partial`, `C39_readme_regression`, `C39_ceres_gradient`, `C39_false_for_ceres_example`, `C39_ceres_with_resets`, `C39_without_resets` | induction over the rows; the value of a program depends only on variables that it does not assign first (`Proof/Agree`), so left-over placeholder values do not matter |
| C40 | proved | `C40_training` | induction over the steps with C39 |
| C41 | proved | `C41_black_scholes` | C02 for the two programs; the Black-Scholes formula and `erf` as distribution function derived by integration |
| C42 | proved | `C42_reproducible`, `C42_exact`, `C42_autodiff_value`, `C42_product_not_restored` | the induction of C01 repeated without any law of arithmetic (`Proof/Gen*`): exact contents of the caches and of every adjoint |
| C43 | partial | `C43_inline_partial`, `C43_false_for_cauchy` | substitution lemmas for value and backward pass, by induction over the expression; linearity of the backward pass in the seed (C10) gives `r.beval(Σ seeds) = Σ r.beval(seed)` |
| C44 | proved | `C44_rebind`, `C44_user_storage`, `C44_storage_irrelevant` | the bound-program invariant of C02 for arbitrary pointers instead of freshly allocated ones; congruence of the meaning of programs in the store |
| C45 | proved | `C45_layout`, `C45_contiguous_gradient`, `C45_readme_advanced` | prefix sums; the pull-back theorem of C02 over the space `Fin N → ℝ` |
| C46 | proved | `C46_data_gradient`, `C46_readme_network`, `C46_optimiser` | induction over the rows with the pull-back theorem over `Fin N → ℝ`; the network layer by layer; frame conditions for the memory of one call |
| C47 | proved | `C47_reproducible`, `C47_exact`, `C47_autodiff_value` | the statement lemmas of C02 repeated without any law of arithmetic (`Proof/GenStmt`, `GenProg`), relative to a set of cells whose contents are known, so that two runs in different memories can be compared |
| C48 | partial | `C48_unbound`, `C48_values_needed_partial`, `C48_adjoints_needed_partial`, `C48_exactly_partial`, `C48_false_for_if_else`, `C48_false_for_comparison`, `C48_false_for_empty_sum` | induction over the expression: every node writes its own cells, and the cells of the operands are consecutive |
| C49 | proved | `C49_one`, `C49_placeholders`, `C49_squares`, `C49_adjoints_of_sums` | number of cells of a substituted expression by induction; every used placeholder occurs in the inlined rest |
| C50 | proved | `C50_evaluate`, `C50_evaluate_real`, `C50_evaluate_adj_safe`, `C50_autodiff_safe` | the forward theorems of C47 with all mentioned cells known; the backward pass never fails because of values (`Proof/Defined`) |
| C51 | proved | `C51_independent`, `C51_any_interleaving` | every call reads and writes its footprint only, and its outcome is a function of the footprint (`Proof/Local`); induction over the calls (`Proof/Interleave`) |
| C52 | partial | `C52_followed_partial`, `C52_not_followed`, `C52_likelihood_loop` | constants not used by the constructor are variables to the node (`Proof/Follow`); a witness per specialisation and operand; loops via C39 |
| C53 | proved | `C53_block_gradient`, `C53_block_evaluate`, `C53_with_for_each` | the inductions behind C01 carried out for expressions and sequences of assignments simultaneously, with scopes (`Proof/Feval`, `Beval`, `Calculus`, `BindN`, `BlocksApi`) |
| C54 | proved | `C54_converges`, `C54_rounding`, `C54_floating_point`, `C54_program_values`, `C54_program_gradient`, `C54_fails_at_zero_factor` | a relation between values over two families of scalar types that is preserved by single operations is preserved by the forward and the backward pass (`Proof/Relate`); applied to convergence (`Proof/Converge`; log-densities: closed forms of values and seeds in every scalar type in `Proof/RelateStat`, their convergence in `Proof/ApproxStat`); statement by statement for programs (`Proof/RelateProg`, `Proof/ConvergeProg`) |
| C55 | partial | `C55_directional_partial`, `C55_hessian_partial`, `C55_hessian_symmetric_partial`, `C55_program_directional_partial`, `C55_false_for_erf`, `C55_false_for_placeholders` | a run over forward variables is related to the real runs along a line by: value and derivative at 0 (`Proof/Relate`, `Proof/Hessian`); symmetric because expressions are smooth inside their domains (`Proof/Smooth`) |
| C56 | partial | `C56_pointer_arithmetic_partial`, `C56_exactly_partial`, `C56_when_defined`, `C56_false_for_value_only`, `C56_false_for_assignment` | induction over expressions with the room left in the caches, and the largest number of cells behind the pointers |
| C57 | proved | `C57_error_bound`, `C57_floating_point`, `C57_program_error_bound`, `C57_model_error_bound` (sums of log-densities), `C57_forward_error_bound` | as C54, with the relation "differs by O(ε)" along the filter of all runs in all rounded arithmetics (`Proof/Rate`); operations are differentiable in their domains, hence locally Lipschitz |
| C58 | proved | `C58_example_main` | C02 and C14 for the two programs |
| C59 | partial | `C59_scalar_partial`, `C59_bound_partial`, `C59_false_for_array_expressions`, `C59_false_for_array_views`, `C59_false_for_bound_arrays`, `C59_false_after_destruction` | induction over pairs of expressions; the counterexamples by computation |
| C60 | partial | `C60_views_partial`, `C60_false_for_variables`, `C60_false_variables_are_copied`, `C60_false_for_array_views`, `C60_false_for_updated_views`, `C60_false_views_are_renamed`, `C60_false_for_updated_target` | simulation: the views of the program as it is built show the values of the objects of the program as it is meant |
| C61 | partial | `C61_programs_partial`, `C61_false_for_moved_scalars`, `C61_false_for_reused_storage`, `C61_false_after_move_assignment` | simulation of C27 extended by the caches of the bound objects; expressions and programs with assignments share one interface (`BoundOk` in `Proof/Works`) |
| C62 | proved | `C62_programs`, `C62_objects` | invariants of C61 and C31 with ownership of every allocated cell; frees are checked in the models (`Half.free`, `St.free`) |
| C63 | proved | `C63_quadratic`, `C63_basic`, `C63_more` | explicit formulas with matrices of Mathlib; the gradients of the expressions (C01, C02) computed for symbolic sizes |
| C64 | proved | `C64_sum_benchmark`, `C64_prod_benchmark`, `C64_stddev_benchmark`, `C64_repeated_constants`, `C64_resets_missing` | one round adds the pullback of the adjoints that are there (C38); induction over the rounds, binomial coefficients by Pascal; derivative of `f_test` by the rules of Mathlib |
| C65 | partial | `C65_sum_of_views_partial`, `C65_prod_of_views_partial`, `C65_false_for_sums_of_copies`, `C65_false_for_products_of_copies`, `C65_ad_benchmark_partial`, `C65_false_of_ad_benchmark` | leaves of the node are cells disjoint from the variables (the allocator's contract), so the pullback is zero there; rounds of the benchmark by induction with three placeholders; derivative of `f_test1` by the rules of Mathlib |
| C66 | proved | `C66_normal_benchmark`, `C66_values_not_random` | determinant of a triangular matrix, `L Lᵀ` positive definite; cache of the node from its definition; rounds by induction for a set of cells; derivative of the log-density by those of log-determinant and quadratic form |
| C67 | proved | `C67_integration_tests` | one lemma for programs of scalars that leave five variables unassigned (`Proof/IntTest`); partial derivatives as in C02, computed by hand and compared with the expected numbers |
| C68 | proved | `C68_overlapping_parts` | an instance of the theory of programs (C03), whose condition on overlaps concerns only bare variables on the right of `op=`; derivative of the sum by hand |
| C69 | proved | `C69_nested_compound_assignments` | an instance of the theory of programs (C03); the store followed statement by statement, derivative near the point, where the divisor stays different from 0 |

## 5. Disagreements between the code and its documentation or evident intent

Each is proved of the model (theorem in parentheses) unless marked (read).

1. `forward.hpp:136`: forward `erf` drops the tangent of its operand (`C14_false_for_erf`, `C15_false_for_erf`); second derivatives are wrong too (`C55_false_for_erf`).
2. `if_else.hpp:94-99`: the node's own view is never bound, so as an operand of a node that reads `get()` it dereferences null (`C05_false_for_nested_if_else`; for every expression of this kind, in any arithmetic: `C05_false_for_every_nested_if_else`).
3. `eq.hpp:119` with `prod.hpp` or a nested `op=`: `w = prod(v)`, `w = (u op= e)` give back cache cells that are still in use; reads and writes
   overlap other nodes or leave the cache (`C05_false_for_assigned_prod`, `C06_false_for_assigned_prod`).
4. `prod.hpp`: the product over an empty range of constants is 0, of expressions 1 (`C13_false_for_empty_product`).
5. `cauchy.hpp`: vector cases multiply by the seed twice (`C23_false_for_vectors`; what is added instead, for all arguments and seeds: `C23_seed_twice_scalar_scale_partial`, `C23_seed_twice_vector_scale_partial`).
6. `uniform.hpp`: with constant `x` and one non-constant vector bound the range check is frozen at construction, or reads an unbound
   view (`C24_false_after_update`, `C24_false_for_expression_bound`).
7. `wishart.hpp`: constant `x` and variable `v` always give `-inf` (`C26_false_for_constant_x`).
8. `det.hpp`: no gradient at singular matrices, although the determinant is differentiable there (`C20_false_at_singular`; for all singular matrices: `C20_singular_partial`).
9. `binary.hpp`: scalar ⊕ empty array: size mismatch (`C29_false_for_empty`).
10. Comparisons, conditions and nodes with an early exit for seed 0 never run the operands' `beval`; adjoints that placeholders inside have
    received are dropped (`C34_false_under_comparison`).
11. `bind.hpp:18-41`: a copy of a bound expression works on the cache of the original: use after free and interference (`C31_false_after_destruction`, `C31_false_interference`).
12. `eval.hpp:82-155`: `autodiff` of an array `op=` returns a view of values that the backward pass has rolled back (`C33_false_for_array_compound`).
13. `x * (x += y)`: the left operand is read by reference after the right one has changed it (`C32_false_for_nested_compound`).
14. Array seeds are unevaluated Eigen expressions, evaluated after the other operand's `beval` ran; harmless for pure operands (modelled).
15. A placeholder assigned twice (or the same assignment node used twice) passes its adjoint on twice, and one used before it is assigned gets a wrong adjoint; the values are
    right and nothing is undefined (`C50_false_for_gradient_of_reassigned`, `C50_false_for_gradient_of_used_before`, `C50_autodiff_safe`).
16. `pow.hpp`: a negative power of 0 adds an infinite adjoint even for seed 0 (`C10_false_at_pole`).
17. `for_each.hpp`: the shape is that of the first element, the value that of the last (`C30_false_for_mixed_sizes`).
18. `var.hpp`: after a move of a vector/matrix variable the moved-from variable's view aliases the new owner; its copy is unusable; move
    assignment swaps the buffers under existing expressions (`C27_false_for_moved_from`, `C27_false_after_move_assignment`).
19. `if_else.hpp`: array branches of different C++ types: the conditional operator materialises a temporary, the result dangles
    (`C11_false_for_mixed_branches`); constant folding of one branch creates this situation (`C13_false_for_mixed_branches`).
20. `autodiff(ad::bind(e))` for array-valued `e`: the returned view points into the destroyed temporary (`C33_false_for_temporary`).
21. Expressions of constant views are folded when built, and are stale after the data changed (`C13_false_after_change`).
22. A second pass without resetting adjoints adds to them (documented, README 369-372; `C08_adjoints_accumulate`).
23. `eval.hpp`: no lvalue overload of `evaluate_adj` for array-valued `ExprBind` (read).
24. `normal.hpp`: constant data of length 0 with scalar mean and sigma asserts (`C22_false_for_empty_data`); `uniform.hpp`: `minCoeff` of
    empty data (`C24_false_for_empty_data`); every constant array that the constructor uses goes stale when the data of a
    `ConstantView` are changed (`C52_not_followed`): the data of normal (scalar mean), uniform, Bernoulli and Wishart, and the scale of normal.  The row buffers of README.md:637-643 cannot be used there.
25. `bernoulli.hpp`: the vector case hands out seeds although the value is `-inf` (`C25_vector_not_silent`).
26. `eq.hpp:18-20, 50` rejects `w = x` for two variables, but overload resolution does not get there: two `VarView`s or two `Var`s are assigned by their copy assignment while the expression is built.  For `Var`s and for views of arrays
    the elements are copied once, and the derivative with respect to `x` is lost (`C60_false_for_variables`, `C60_false_variables_are_copied`, `C60_false_for_array_views`); scalar views become aliases, which is right (`C60_views_partial`) unless one of them is changed
    afterwards (`C60_false_views_are_renamed`, `C60_false_for_updated_views`, `C60_false_for_updated_target`).
27. `transpose` of a constant and ranges of constant matrices do not compile (read).
28. Folded comparisons have type `bool` (read; excluded by `Src.Ok`).
29. `example/ceres_3layer_neural_net/src.cpp:46-54` differentiates a program with placeholders once per row without resetting the placeholders' adjoints, which
    README.md:369-372 asks for.  The slope of row `i` (from 0) of `n` enters the gradient of `b3` with the factor `(i+1)(n-i)` (`C39_ceres_gradient`); with the data of
    the example and zero parameters it is -6720 instead of -960 (`C39_false_for_ceres_example`).  The optimiser is given a wrong gradient.
30. `prod.hpp:94-104`: if an operand of an array-valued iterated product has a zero coefficient, the backward pass recomputes the cached product in a different order; with rounding
    the array returned by `autodiff` is then no longer the value computed by the forward pass (`C42_product_not_restored`, in fixed-point arithmetic).  Harmless in exact arithmetic.
31. README.md:441-470 uses `VarView<double, vec> v(3)`, `x.bind(double*)` returning the next pointer, and `x.bind_adj(double*)`.  None of them exists: the constructors of `VarView<T, vec>`
    and `VarView<T, mat>` take the pointers first, there is no `bind_adj`, and `ValueAdjView::bind(ptr_pack_t)` hides `ValueView::bind(value_t*)`.  C45 models the program that can be written.
32. README.md:681 describes the network as `A3*s(A2*s(A1*x+b1)+b2+(A1*x+b1))+b3`; the code below it computes `A3*(s(A2*s(A1*x+b1)+b2)+(A1*x+b1))+b3`.
33. README.md:749-751: the values printed by the network program according to its comments (`6655`, `[1, 2]`, `[-1210, -12100]`) are those of the regression example; there are 25 parameters.
34. README.md:292 says that `bind_cache_size()` is exactly what is needed.  It is more for `if_else` (both branches, only one is evaluated), for operands of comparisons (adjoints that are
    never touched) and for empty iterated sums and products (`C48_false_for_if_else`, `C48_false_for_comparison`, `C48_false_for_empty_sum`).
35. README.md lists `ad::constant_view(T*)` (829) and `ad::bernoulli(x, p)` (869).  There is no constant view of a scalar (constant.hpp:32-34), and the function is `bernoulli_adj_log_pdf`.
36. `unary.hpp` calls `Eigen::sinh`, `Eigen::cosh` and `Eigen::tanh` by their qualified names, for scalars too.  Eigen declares these functions for array expressions only, so that (read; Eigen's source is
    not at hand) `ad::sinh`, `ad::cosh` and `ad::tanh` of a scalar, which README.md:807 offers, do not compile.  The only use in the repository is for arrays (test/reverse/core/tmp/test_unary.cpp:23).
    What the model says about these functions of scalars describes the evident intention.
37. `forward.hpp` declares the unary `operator-` of `ADForward` in namespace `ad`, the type itself being in `ad::core`: without `using namespace ad` argument-dependent lookup does not find it (read).  With
    `ForwardVar` as scalar type of the reverse mode (README.md says that any type with the operations will do; the purpose is second derivatives) the backward maps of `cos`, binary `-` and `/`,
    which negate the seed, do not compile, nor do those which mix numbers and the scalar type (`1. - x * x`).
38. `prod` divides the product by each factor that is not 0 (prod.hpp:206; prod.hpp:99 for lists).  When the product of non-zero factors underflows, all adjoints are 0, although the partial derivatives, products of fewer factors, need not be
    (`C54_fails_at_zero_factor`).
39. "Bind the value only" (`begin.adj = nullptr; begin = value_adj_view_t::bind(begin)`: `sum`, `norm`, `det`, `log_det`, `prod`, `pow<0>`, `pow<1>`, comparisons, log-densities) computes `nullptr + size`, which the standard
    does not define (`C56_false_for_value_only`).  `EqNode::bind_cache` gives the root of the right-hand side cells past the end of the caches, or behind a null pointer, before it takes them back (`C56_false_for_assignment`), unless cells needed later make room for them (`C56_exactly_partial`).  Harmless with
    usual compilers: the pointers are not used.  The other theorems are about the flat addresses these compilers use.
40. `hessian_gen` resets the adjoints of `x` only between its rounds (hessian.hpp:50), and the present assignment nodes do not reset those of their variables either.  For a program with placeholders the adjoint a placeholder received in one round is passed on again in the next ones: the Hessian of
    `w = x[0] * x[1], w` gets an entry 2 in place of 1 (`C55_false_for_placeholders`).
41. The implicit copy assignments of nodes and of `ExprBind` assign `Eigen::Map`s, which copies coefficients instead of pointers.  Assigning array expressions is undefined behaviour (`C59_false_for_array_expressions`); assigning bound array
    expressions overwrites the variables of the left one and leaves its expression as it was (`C59_false_for_bound_arrays`); scalar bound expressions end up in the cache of the right one (`C59_false_after_destruction`).
42. `Var<T, scl>` keeps its two numbers inside the object, so a move leaves expressions, bound or not, pointing into the old object: after a `std::vector<Var<double>>` has grown, every expression of its elements is undefined behaviour
    (`C61_false_for_moved_scalars`) or an expression of whatever is stored there next (`C61_false_for_reused_storage`).  Expressions of vectors and matrices follow the move (`C61_programs_partial`), but not a move assignment
    (`C61_false_after_move_assignment`).
43. `binary.hpp:40-46` derives `BinaryNode` from `ValueAdjView` over the value type of the left operand, whereas `value_adj_view_t` (line 71) is `ValueAdjView` over the common type of both, which is also what the comment in lines 26-27 announces.  If the
    left operand has another type than the common one, the node is not derived from its `value_adj_view_t` and (read) does not compile: `2 * x` and `1 - x` with an `int` literal, which becomes `Constant<int, scl>` (type_traits.hpp:223-227).  `2. * x` and `x * 2` are fine; tests and
    examples use these only.  The model has one type of coefficients.
44. The FastAD loops of the benchmarks (`sum_benchmark.cpp:57-60`, `prod_benchmark.cpp:60-63`) call `autodiff` again and again without resetting the adjoints, which README.md:369-372 asks for.  Each round starts from the adjoints of the placeholders
    left by the one before, so that after `N` rounds the adjoints of the variables are `(N + 2).choose 3` times the gradient, not the gradient and not `N` times it (`C64_sum_benchmark`, `C64_prod_benchmark`, `C64_resets_missing`).  The results are discarded, so
    that only a reader who copies the loop is harmed; the finite-difference loops beside them compute the gradient afresh in every round.
45. `ad::sum(begin, end, f)` and `ad::prod(begin, end, f)` (`sum.hpp:219, 233-240`, `prod.hpp`) keep the results of `f` as they are, without `util::convert_to_ad_t`.  If `f` returns an element of a range of `Var`s by value, as `[](const auto& xi) {return xi;}` in `benchmark/ad_benchmark.cpp:55` does, the node owns copies of the variables: it does not see later changes of the variables, and its derivatives go to the copies, which nobody can read.  `C65_false_for_sums_of_copies`, `C65_false_for_products_of_copies`; in the benchmark all partial derivatives lack `1 + exp(w1 - w0)`, and the adjoints of 97 of the 100 variables stay 0, `C65_ad_benchmark_partial`, `C65_false_of_ad_benchmark`.  Remedy: `-> const auto&` does not help (`std::decay_t`); the function must return a view, or the helper functions must convert.
46. `x.get().Random()` and `mu.get().Random()` (`benchmark/normal_benchmark.cpp:58-59, 90-91`) call a static function of Eigen and discard the random expression it returns (read; with Eigen's assertions on it would even fail, as the type has no fixed size).  So the benchmarks do not differentiate at a random point but at `x = mu = 0`, where the value is `-n log 10` for all covariance matrices of `make_cov` and the gradients of `x` and `mu` are 0: `C66_values_not_random`.  `setRandom()` was meant.

## 6. Mutation tests

`seeded/LOG.jsonl`: wrong variants of the model (a changed coefficient, a forgotten write, an off-by-one in a cache size, ...), each applied to a scratch
copy; recorded are the theorems whose proofs fail, directly and through lemmas.  A change that left every theorem about the affected claim
provable would have meant that the theorem is too weak.
