{"id": "C01", "title": "Reverse mode computes the exact gradient of any side-effect-free expression", "statement": "Take any expression built from variables, constants, constant views, the unary functions, the arithmetic and comparison operators, pow<n>, sum, prod, norm, dot, transpose, det/log_det and if_else (where the library can evaluate it). After bind(), autodiff(expr, seed) adds to the adjoint of every element of every variable exactly seed times the partial derivative of the mathematical function denoted by the expression, evaluated at the current variable values.", "quantifier": "for every such expression tree of any depth and shape, every assignment of variable values in the interior of the domain, every previous adjoint contents, every seed, every direction of perturbation", "why_tests_cant": "there are infinitely many expression trees and points; unit tests check a handful of trees against hand-written derivatives", "anchors": ["include/fastad_bits/reverse/core/eval.hpp: autodiff, evaluate, evaluate_adj", "include/fastad_bits/reverse/core/unary.hpp: UnaryNode", "include/fastad_bits/reverse/core/binary.hpp: BinaryNode", "include/fastad_bits/reverse/core/bind.hpp: bind"]}
{"id": "C02", "title": "Placeholder programs: glued assignments differentiate to the gradient of the composed function", "statement": "For a comma-chain of statements, each either an expression or a placeholder assignment w = expr (w not mentioned before its single assignment), ending with any such statement, one autodiff starting from zeroed placeholder adjoints yields, for every non-placeholder variable, its previous adjoint plus seed times the partial derivative of the final value regarded as a function of the non-placeholder variables only (placeholders substituted away). The returned value is that of the composed function.", "quantifier": "for every number of statements, every nesting of the comma operator, all shapes, all values in the domain, all seeds", "why_tests_cant": "the chain of statements is unbounded and adjoints flow through shared placeholder memory; a test fixes one chain", "anchors": ["include/fastad_bits/reverse/core/eq.hpp: EqNode", "include/fastad_bits/reverse/core/glue.hpp: GlueNode", "include/fastad_bits/reverse/core/for_each.hpp: ForEachIterNode"]}
{"id": "C03", "title": "Compound assignments (+=, -=, *=, /=) differentiate correctly and the backward pass restores the variable values", "statement": "A program that also contains statements x op= expr computes in the forward pass what the C++ statements mean, and after autodiff (a) every variable updated by op= holds again the value it had before the forward pass, and (b) the adjoints are the derivatives with respect to the values held before the forward pass (including when expr mentions x itself, or when the same variable is updated several times).", "quantifier": "for every sequence of assignments and compound assignments, every aliasing of the updated variable inside the right-hand side, every value and seed", "why_tests_cant": "the restored value depends on the full history of in-place updates; tests cover single updates only", "anchors": ["include/fastad_bits/reverse/core/eq.hpp: OpEqNode, AddEq, SubEq, MulEq, DivEq"]}
{"id": "C04", "title": "bind_cache_size is exact", "statement": "bind_cache(begin) consumes exactly bind_cache_size() value cells and adjoint cells: the returned pointers are begin advanced by exactly those two counts, for every expression.", "quantifier": "for every expression tree (with side effects or not) and every begin address", "why_tests_cant": "the README promises the exact count for any expression; tests compare a few constants", "anchors": ["include/fastad_bits/reverse/core/bind.hpp: ExprBind", "include/fastad_bits/reverse/core/eq.hpp: bind_cache, bind_cache_size", "include/fastad_bits/reverse/core/prod.hpp: ProdElemNode::bind_cache"]}
{"id": "C05", "title": "After bind(), evaluation never touches memory outside the expression's cache and the user's variables", "statement": "A bound expression evaluates forward and backward without dereferencing a null view and without reading or writing any cell outside [begin, begin+bind_cache_size()) and the storage of the variables it mentions.", "quantifier": "for every expression the API accepts, every state of memory", "why_tests_cant": "an out-of-bounds write into a scratch buffer is usually silent, so passing tests show nothing; the set of expressions is infinite", "anchors": ["include/fastad_bits/reverse/core/eq.hpp: EqNode::bind_cache", "include/fastad_bits/reverse/core/prod.hpp: ProdElemNode::bind_cache", "include/fastad_bits/reverse/core/if_else.hpp: IfElseNode::bind_cache", "include/fastad_bits/reverse/core/value_view.hpp"]}
{"id": "C06", "title": "Cache cells are not shared", "statement": "After bind_cache, the cells assigned to different nodes of one expression do not overlap (except that the right-hand side of w = expr deliberately shares the memory of w), so evaluating one sub-expression can never corrupt the stored value of another.", "quantifier": "for every expression tree and begin address, every pair of nodes", "why_tests_cant": "overlap only shows for particular combinations of shapes and node kinds; the pairs are unbounded", "anchors": ["include/fastad_bits/reverse/core/unary.hpp: bind_cache", "include/fastad_bits/reverse/core/binary.hpp: bind_cache", "include/fastad_bits/reverse/core/sum.hpp: bind_cache", "include/fastad_bits/reverse/core/eq.hpp: EqNode::bind_cache"]}
{"id": "C07", "title": "evaluate() returns the function value at the current variable values, every time", "statement": "evaluate(expr) of a bound side-effect-free expression returns the mathematical value of the expression at the values the variables (and viewed constant buffers) hold at the moment of the call, regardless of any previous evaluations, previous contents of the caches, or values the variables had before; it leaves all variable values and all adjoints unchanged, and calling it again returns the same value.", "quantifier": "for every expression, every initial memory contents, every history of earlier evaluate/autodiff calls and variable updates", "why_tests_cant": "staleness bugs depend on the call history, which is unbounded", "anchors": ["include/fastad_bits/reverse/core/eval.hpp: evaluate", "include/fastad_bits/reverse/core/constant.hpp: ConstantView", "include/fastad_bits/reverse/core/sum.hpp: feval", "include/fastad_bits/reverse/core/prod.hpp: feval"]}
{"id": "C08", "title": "Adjoints accumulate additively over repeated passes", "statement": "Running autodiff N times on bound side-effect-free expressions without resetting adjoints, possibly changing viewed data buffers or variable values between the passes, leaves in each variable's adjoint its initial adjoint plus the sum of the N gradients (the README's regression loop).", "quantifier": "for every number of passes, every sequence of data between passes, every initial adjoint", "why_tests_cant": "the number of passes and the data are unbounded; a test runs a fixed loop", "anchors": ["include/fastad_bits/reverse/core/eval.hpp: autodiff", "include/fastad_bits/reverse/core/var_view.hpp: beval"]}
{"id": "C09", "title": "Backward pass frame: values and unrelated adjoints untouched", "statement": "evaluate_adj on a side-effect-free expression changes no value of any variable or constant, and changes no adjoint except those of variables mentioned in the expression (and its own cache).", "quantifier": "for every expression, every memory contents, every cell not mentioned", "why_tests_cant": "a universally quantified frame condition over all memory cells cannot be tested", "anchors": ["include/fastad_bits/reverse/core/var_view.hpp: beval", "include/fastad_bits/reverse/core/prod.hpp: ProdIterNode::beval"]}
{"id": "C10", "title": "Backward evaluation is linear in the seed", "statement": "The adjoint increment produced by evaluate_adj with seed a*s+b*t equals a times the increment for s plus b times the increment for t; seed 0 changes no variable adjoint; an array seed yields the vector-Jacobian product.", "quantifier": "for every expression of the side-effect-free fragment, all seeds (scalar or array), all coefficients", "why_tests_cant": "quantifies over all real coefficients and all trees", "anchors": ["include/fastad_bits/reverse/core/eval.hpp: evaluate_adj", "include/fastad_bits/reverse/core/unary.hpp: beval", "include/fastad_bits/reverse/core/binary.hpp: beval", "include/fastad_bits/reverse/stat/cauchy.hpp: beval"]}
{"id": "C11", "title": "if_else evaluates and differentiates only the selected branch", "statement": "if_else(cond, a, b) has the value of a when cond is non-zero and of b otherwise; the backward pass changes only adjoints of variables of the selected branch, by that branch's derivative; the result of if_else is usable as an operand wherever an expression is accepted.", "quantifier": "for every condition, every pair of branches, every value of the condition, every enclosing expression", "why_tests_cant": "needs all enclosing contexts; tests only use if_else at the root", "anchors": ["include/fastad_bits/reverse/core/if_else.hpp: IfElseNode"]}
{"id": "C12", "title": "Comparison and logical operators yield truth values and no derivative", "statement": "Comparison nodes evaluate elementwise to 1 or 0 according to the real-number comparison, logical and/or evaluate to the conjunction/disjunction for 0/1 operands of every shape, and their backward pass changes no memory at all.", "quantifier": "for every pair of operand expressions, shapes and values, every seed", "why_tests_cant": "all operand values and shapes", "anchors": ["include/fastad_bits/reverse/core/binary.hpp: LessThan..LogicalOr, BinaryNode::beval"]}
{"id": "C13", "title": "Constant folding is transparent", "statement": "When all operands are constants the builders return an already evaluated constant; its value equals what the corresponding expression node would have evaluated to, for every unary and binary operator, pow, sum, prod, norm, dot and if_else, and for every (possibly empty) range.", "quantifier": "for every operator, operand shape and value, every range length including zero", "why_tests_cant": "requires comparing two code paths on all inputs, including the empty range", "anchors": ["include/fastad_bits/reverse/core/unary.hpp: ADNODE_UNARY_FUNC", "include/fastad_bits/reverse/core/binary.hpp: ADNODE_BINARY_FUNC", "include/fastad_bits/reverse/core/sum.hpp: sum", "include/fastad_bits/reverse/core/prod.hpp: prod", "include/fastad_bits/reverse/core/if_else.hpp: if_else"]}
{"id": "C14", "title": "Forward mode computes the directional derivative of any composition", "statement": "For any composition of the overloaded operators and functions on ForwardVar, seeding each input's adjoint with the component of a direction yields in the result's adjoint the derivative of the composed real function in that direction, and in the value its value.", "quantifier": "for every composition, point in the domain and direction", "why_tests_cant": "infinitely many compositions and directions; tests use tangent 1 mostly", "anchors": ["include/fastad_bits/forward/core/forward.hpp: operators and functions", "include/fastad_bits/forward/core/dualnum.hpp"]}
{"id": "C15", "title": "Forward and reverse mode agree", "statement": "For every scalar expression available in both modes, the forward-mode derivative in a direction equals the sum over the variables of (reverse-mode adjoint) * (direction component).", "quantifier": "for every common expression, point and direction", "why_tests_cant": "two implementations must agree on all inputs", "anchors": ["include/fastad_bits/forward/core/forward.hpp", "include/fastad_bits/reverse/core/unary.hpp", "include/fastad_bits/reverse/core/binary.hpp"]}
{"id": "C16", "title": "Every unary function carries its true derivative", "statement": "For each unary function of reverse mode, the factor that multiplies the incoming seed in backward evaluation is the derivative of the function computed in forward evaluation, at every point of the open domain.", "quantifier": "for every unary function and every real point of the open domain", "why_tests_cant": "a continuum of points", "anchors": ["include/fastad_bits/reverse/core/unary.hpp: UnaryMinus..Tanh"]}
{"id": "C17", "title": "pow<n> is exact for every integer exponent", "statement": "Scalar pow<n>(x) equals x^n for every exponent n and base x (0^0 = 1, 0^negative = +infinity), and its backward pass multiplies the seed by n*x^(n-1) for every n, including at x = 0 when n >= 0.", "quantifier": "for all integer exponents and all bases", "why_tests_cant": "exponents are compile-time parameters; each test instantiates one", "anchors": ["include/fastad_bits/reverse/core/pow.hpp: PowFunc, PowNode"]}
{"id": "C18", "title": "prod differentiates exactly even when factors vanish", "statement": "The backward pass of prod (over a range of expressions or over the elements of one expression) multiplies the seed for each factor by the product of all the other factors, whether zero, one or more factors are zero, and leaves the stored product intact.", "quantifier": "for every number of factors, every pattern of zeros, every seed", "why_tests_cant": "the zero pattern subsets are exponential in the length", "anchors": ["include/fastad_bits/reverse/core/prod.hpp: ProdIterNode::beval, ProdElemNode::beval"]}
{"id": "C19", "title": "dot is matrix multiplication with the exact vector-Jacobian products", "statement": "dot(A, B) evaluates to the matrix product and its backward pass passes seed*B^T to A and A^T*seed to B, which are the exact vector-Jacobian products; transpose(A) evaluates to the transpose with transposed seed; norm(v) is the sum of squares with seed 2*seed*v.", "quantifier": "for all matrix dimensions, values and seeds", "why_tests_cant": "all dimensions and all values", "anchors": ["include/fastad_bits/reverse/core/dot.hpp: DotNode", "include/fastad_bits/reverse/core/transpose.hpp: TransposeNode", "include/fastad_bits/reverse/core/norm.hpp: NormNode"]}
{"id": "C20", "title": "det carries the gradient of the determinant", "statement": "det(A) evaluates to the determinant and its backward pass adds seed times the gradient of the determinant (the cofactor matrix) for every square matrix.", "quantifier": "for all dimensions and all matrices, singular or not", "why_tests_cant": "all dimensions and matrices, singular ones have measure zero and are not tested for gradient", "anchors": ["include/fastad_bits/reverse/core/det.hpp: DetNode"]}
{"id": "C21", "title": "log_det carries the gradient of log|det|", "statement": "log_det(A) evaluates to log|det A| for non-singular A with gradient inverse-transpose, for each decomposition policy under its stated precondition; it adds nothing for singular A.", "quantifier": "for all dimensions and matrices", "why_tests_cant": "all dimensions and matrices", "anchors": ["include/fastad_bits/reverse/core/log_det.hpp: LogDetNode"]}
{"id": "C22", "title": "normal_adj_log_pdf: value and gradients", "statement": "In every shape combination, normal_adj_log_pdf evaluates to the normal log-density up to its constant, is -infinity for invalid scale, and its backward pass adds seed times the partial derivatives with respect to x, mean and scale.", "quantifier": "for all lengths, data, parameters, seeds; all shape combinations; constant or variable arguments", "why_tests_cant": "continuum of parameters, all lengths; optimised code paths for constants", "anchors": ["include/fastad_bits/reverse/stat/normal.hpp"]}
{"id": "C23", "title": "cauchy_adj_log_pdf: value and gradients", "statement": "In every shape combination, cauchy_adj_log_pdf evaluates to the Cauchy log-density up to its constant (-infinity for non-positive scale) and its backward pass adds seed times the partial derivatives.", "quantifier": "for all lengths, data, parameters and all seeds", "why_tests_cant": "tests only use seed 1", "anchors": ["include/fastad_bits/reverse/stat/cauchy.hpp"]}
{"id": "C24", "title": "uniform_adj_log_pdf: value and gradients", "statement": "In every shape combination, uniform_adj_log_pdf evaluates to the uniform log-density when every observation is strictly inside its interval and -infinity otherwise, using the values its arguments hold at the time of evaluation, and its backward pass adds seed times the partial derivatives with respect to min and max.", "quantifier": "for all lengths, data, parameters, seeds and all histories of parameter updates", "why_tests_cant": "staleness of cached checks depends on the history of parameter values", "anchors": ["include/fastad_bits/reverse/stat/uniform.hpp"]}
{"id": "C25", "title": "bernoulli_adj_log_pdf: value and gradients", "statement": "bernoulli_adj_log_pdf evaluates to the Bernoulli log-mass for 0/1 observations (with 0*log 0 = 0 at the boundary, -infinity where the mass is zero or an observation is not 0/1) and its backward pass adds seed times the derivative in p inside (0,1).", "quantifier": "for all lengths, data, probabilities (also outside [0,1]) and seeds", "why_tests_cant": "continuum of p and all data vectors", "anchors": ["include/fastad_bits/reverse/stat/bernoulli.hpp"]}
{"id": "C26", "title": "wishart_adj_log_pdf: value and gradients", "statement": "wishart_adj_log_pdf evaluates to the Wishart log-density up to constants for positive definite x and v with n > p-1, -infinity otherwise, for constant or variable x and v, and its backward pass adds seed times the gradient.", "quantifier": "for all dimensions, symmetric matrices, seeds; constant or variable arguments", "why_tests_cant": "tests use one 3x3 pair with both arguments variable", "anchors": ["include/fastad_bits/reverse/stat/wishart.hpp"]}
{"id": "C27", "title": "Var has value semantics", "statement": "Copying or assigning a Var yields an independent variable with equal value and adjoint: later writes through either, or through expressions built from either, never change the other; a Var's views always refer to its own storage.", "quantifier": "for all shapes and all sequences of copies, moves, assignments and writes", "why_tests_cant": "aliasing shows only under particular interleavings of copies and writes", "anchors": ["include/fastad_bits/reverse/core/var.hpp: Var constructors, operator=, rebind"]}
{"id": "C28", "title": "Sub-views alias exactly the addressed elements", "statement": "v(i), v.head(n) and v.tail(n) read and write exactly the elements i, the first n, the last n of v (value and adjoint) and no others; differentiating an expression in a sub-view adds to exactly those adjoints.", "quantifier": "for all lengths, indices and counts in range", "why_tests_cant": "all index combinations", "anchors": ["include/fastad_bits/reverse/core/var_view.hpp: VarView<vec>::operator(), head, tail"]}
{"id": "C29", "title": "Scalar broadcasting", "statement": "A binary operator between a scalar and a vector or matrix yields the shape of the array operand, applies the scalar to every element, and the backward pass gives the scalar the sum of the elementwise contributions.", "quantifier": "for every operator, every array size including empty, every value and seed", "why_tests_cant": "all sizes including 0 and all operators in both operand orders", "anchors": ["include/fastad_bits/reverse/core/binary.hpp: BinaryNode constructor, blmap/brmap"]}
{"id": "C30", "title": "for_each equals writing the statements out", "statement": "for_each over a range of expressions behaves, forward and backward, like gluing the same expressions with the comma operator in order: same value, same side effects, same adjoints.", "quantifier": "for every non-empty sequence of expressions and every seed", "why_tests_cant": "range length unbounded", "anchors": ["include/fastad_bits/reverse/core/for_each.hpp: ForEachIterNode", "include/fastad_bits/reverse/core/glue.hpp: GlueNode"]}
{"id": "C31", "title": "A bound expression object is self-contained", "statement": "An object returned by bind() keeps working on its own cache after being copied or moved, independently of the object it was copied from.", "quantifier": "for every expression and every sequence of copies, moves and destructions", "why_tests_cant": "lifetimes and aliasing of hidden buffers cannot be sampled", "anchors": ["include/fastad_bits/reverse/core/bind.hpp: ExprBind"]}
{"id": "C32", "title": "Operands with side effects are evaluated consistently", "statement": "An expression whose operand contains a compound assignment (for instance x * (x += y)) is evaluated and differentiated as one consistent function: the adjoints are the derivatives of the value returned by evaluate.", "quantifier": "for every position of a compound assignment inside an expression", "why_tests_cant": "depends on the interleaving of reads by reference and writes", "anchors": ["include/fastad_bits/reverse/core/binary.hpp: feval, beval", "include/fastad_bits/reverse/core/eq.hpp: OpEqNode"]}
{"id": "C33", "title": "autodiff returns the function value", "statement": "autodiff(expr) returns the value computed by the forward pass, for every shape and statement kind.", "quantifier": "for every program and shape", "why_tests_cant": "the returned object may be a view of memory that the backward pass changes", "anchors": ["include/fastad_bits/reverse/core/eval.hpp: autodiff"]}
{"id": "C34", "title": "Assignments inside early-exit nodes still propagate", "statement": "When a placeholder assignment is nested in an argument of another expression on the left of a comma, adjoints that later statements accumulated in the placeholder are propagated to the variables of its definition.", "quantifier": "for every enclosing node and every later use", "why_tests_cant": "requires all combinations of enclosing node and later use", "anchors": ["include/fastad_bits/reverse/core/glue.hpp: GlueNode::beval", "include/fastad_bits/reverse/core/det.hpp: DetNode::beval", "include/fastad_bits/reverse/stat/normal.hpp: beval"]}
{"id": "C35", "title": "Placeholder adjoints are the sensitivities of the intermediate values", "statement": "After autodiff from zeroed placeholder adjoints, the adjoint of a placeholder w equals seed times the derivative of the final value with respect to the value assigned to w.", "quantifier": "for every program and every placeholder in it", "why_tests_cant": "all programs", "anchors": ["include/fastad_bits/reverse/core/eq.hpp: EqNode::beval"]}
{"id": "C36", "title": "Optimised constant paths of the log-pdf nodes equal the general formula", "statement": "The sufficient-statistics shortcuts used when x (or x and sigma) are constant give exactly the same value and the same parameter gradients as the general element-by-element formula.", "quantifier": "for every data vector of positive length, every mean and positive sigma, every seed", "why_tests_cant": "two algebraically different formulas must agree on all real inputs", "anchors": ["include/fastad_bits/reverse/stat/normal.hpp: vss and vsv specialisations"]}
{"id": "C37", "title": "Log-posteriors of statistical models are differentiated exactly", "statement": "For a sum of log-pdf terms (normal, uniform, Bernoulli, Wishart, scalar Cauchy; operand types free of the recorded defects) whose operands are arbitrary well-formed expressions of the variables, autodiff returns the log-density of the model at the current variable values and adds seed times its exact gradient to the adjoints, no matter how often and at which parameter values the bound model was evaluated before.", "quantifier": "for every number of terms, every operand expression, every data size, every parameter value in the support and every history of evaluations", "why_tests_cant": "nodes cache quantities derived from constant operands at construction; correctness must hold for every composition with arbitrary operand expressions and every history", "anchors": ["include/fastad_bits/reverse/stat/normal.hpp", "include/fastad_bits/reverse/stat/uniform.hpp", "include/fastad_bits/reverse/stat/bernoulli.hpp", "include/fastad_bits/reverse/stat/wishart.hpp", "include/fastad_bits/reverse/stat/cauchy.hpp: case 1"]}
{"id": "C38", "title": "autodiff with arbitrary adjoints is the pullback of the program", "statement": "If the adjoints are not zero when a placeholder program is differentiated, autodiff adds to the adjoint of every variable x which is not assigned the derivative with respect to x of: the sum over all variables b of (adjoint of b before) times (value of b after the program) plus seed times the value of the program. So adjoints of placeholders that were not reset are used as further seeds.", "quantifier": "for every program, every memory, every seed and all values of all adjoints", "why_tests_cant": "the effect of left-over adjoints depends on every placeholder, every statement and their order; tests start from zero", "anchors": ["include/fastad_bits/reverse/core/eq.hpp: EqNode::beval, OpEqNode::beval", "include/fastad_bits/reverse/core/glue.hpp: GlueNode::beval", "include/fastad_bits/reverse/core/eval.hpp: autodiff"]}
{"id": "C39", "title": "Loops over data add up the loss and its gradient", "statement": "When an expression bound once is differentiated in a loop over the rows of a data set, each row being copied to buffers seen through constant views, the returned values add up to the total loss and the adjoints of the parameters become the gradient of the total loss.", "quantifier": "for every program, any number of rows with any contents, all parameter values", "why_tests_cant": "the bound expression carries caches and adjoints from one row to the next; a loop over few rows with particular data says nothing about others", "anchors": ["README.md: Simple Linear Regression Model", "example/ceres_3layer_neural_net/src.cpp: NN::loss", "include/fastad_bits/reverse/core/eval.hpp: autodiff", "include/fastad_bits/reverse/core/constant.hpp: constant_view"]}
{"id": "C40", "title": "Training loops follow the exact gradient method", "statement": "A training loop that zeroes the gradient, loops over the data and then updates the parameters in place by any rule from parameters and gradient computes, after any number of steps, exactly the iterates of that rule with the mathematical gradient of the loss, with one binding of the expression.", "quantifier": "for every program, data set, update rule and number of steps", "why_tests_cant": "a stale cache or adjoint would show only after several steps and for some updates", "anchors": ["example/ceres_3layer_neural_net/src.cpp: NN::loss, main", "include/fastad_bits/reverse/core/bind.hpp: ExprBind", "include/fastad_bits/reverse/core/eval.hpp: autodiff"]}
{"id": "C41", "title": "The Black-Scholes example prints the prices and deltas of the options", "statement": "example/black_scholes.cpp (also in the README) prints the Black-Scholes prices of the call and of the put, that is the discounted expectations of their payoffs, and their deltas, that is the derivatives of these prices with respect to the price of the underlying.", "quantifier": "for all positive underlying prices, strikes, volatilities and times, all interest rates, any placement of the memory", "why_tests_cant": "the example is run with one set of numbers and its output is compared to nothing; prices are integrals", "anchors": ["example/black_scholes.cpp: black_scholes_option_price, main", "README.md: Black-Scholes Put-Call Option Pricing", "include/fastad_bits/reverse/core/eq.hpp: EqNode", "include/fastad_bits/reverse/core/glue.hpp: GlueNode", "include/fastad_bits/reverse/core/bind.hpp: bind"]}
{"id": "C42", "title": "Results are reproducible bit by bit in any arithmetic", "statement": "With floating-point rounding, overflow and NaN (indeed in any arithmetic, without assuming any law): autodiff of a bound side-effect-free expression has no undefined behaviour, and the returned numbers and the resulting adjoints are a function of the values of the variables, constants, seed and previous adjoints only - not of where the caches were allocated, what was in them, or what was computed before. evaluate returns the node-by-node value in that arithmetic, and so does autodiff for scalar expressions.", "quantifier": "for every scalar type and every interpretation of its operations, every well-formed expression, every placement, every content of uninitialised memory and every history", "why_tests_cant": "a result that depends on stale or uninitialised memory shows up only for particular contents of that memory; floating-point arithmetic satisfies no algebraic law on which an argument by test cases could be extended", "anchors": ["include/fastad_bits/reverse/core/bind.hpp: ExprBind, bind", "include/fastad_bits/reverse/core/eval.hpp: evaluate, autodiff", "include/fastad_bits/reverse/core/prod.hpp: ProdIterNode::beval", "include/fastad_bits/util/ptr_pack.hpp: PtrPack"]}
{"id": "C43", "title": "Placeholders are transparent", "statement": "Introducing placeholders changes neither values nor derivatives: w1 = r1, ..., wn = rn, e returns the same value and adds the same to the adjoints of all other variables as the single expression in which every mention of wi is replaced by ri, for every seed and also at points where the function is not differentiable.", "quantifier": "for every program of placeholder assignments and a final expression, grouped in any way, all shapes, seeds, values and placements of memory", "why_tests_cant": "the two expressions build different trees with different caches and different orders of adjoint accumulation; equality would have to be tested for every way to share a subexpression", "anchors": ["include/fastad_bits/reverse/core/eq.hpp: EqNode", "include/fastad_bits/reverse/core/glue.hpp: GlueNode", "include/fastad_bits/reverse/core/var_view.hpp: VarView", "README.md: Placeholder"]}
{"id": "C44", "title": "Caches may be supplied by the user and do not matter", "statement": "Instead of ad::bind the user may pass buffers of bind_cache_size() cells to bind_cache: whatever they contain, and even if several expressions share them, autodiff has no undefined behaviour, returns the value, writes nothing outside the buffers, the placeholders and the adjoints of the variables, and produces the gradient. bind_cache may be called again, and then the last call alone counts. For any sequence of differentiations the returned values and the final contents of the user's variables and adjoints do not depend on which buffers were used.", "quantifier": "for every program, every history of earlier bindings, every placement and content of the buffers with enough room outside the user's variables, every sequence of differentiations", "why_tests_cant": "a node that forgets to rebind a pointer, or that relies on what is left in its cache, shows only for particular placements and contents; with private zero-initialised storage as in the tests it stays hidden", "anchors": ["README.md: Basic Usage", "include/fastad_bits/reverse/core/unary.hpp: UnaryNode::bind_cache, bind_cache_size", "include/fastad_bits/reverse/core/eq.hpp: EqNode::bind_cache, OpEqNode::bind_cache", "include/fastad_bits/reverse/core/value_adj_view.hpp: ValueAdjView::bind", "include/fastad_bits/reverse/core/eval.hpp: autodiff"]}
{"id": "C45", "title": "Contiguous parameters give a contiguous gradient", "statement": "Variables bound one after the other to one block of memory (each bind continues at the pointers returned by the previous one) tile the block exactly. If all variables of a program lie in such a block, or in a separate working area that contains the placeholders, then after autodiff the block of adjoints has increased by the gradient (Frechet derivative) of the program as a function of the parameter vector. In particular the program of README 'Advanced Usage'.", "quantifier": "for every list of shapes, every program, every placement of parameters, working area and caches, all parameter values and seeds", "why_tests_cant": "an optimiser reads the block as one vector, so a single misplaced pointer permutes or corrupts the whole gradient; whether that happens depends on the combination of shapes", "anchors": ["README.md: Advanced Usage", "include/fastad_bits/reverse/core/value_adj_view.hpp: ValueAdjView::bind", "include/fastad_bits/reverse/core/value_view.hpp: ValueView::bind", "include/fastad_bits/reverse/core/var_view.hpp: VarView", "include/fastad_bits/reverse/core/eval.hpp: autodiff"]}
{"id": "C46", "title": "The loss of a data set and its gradient vector; the neural network of the README", "statement": "A loop over the rows of a data set accumulates in the block of adjoints the gradient (Frechet derivative) of the total loss as a function of the parameter vector. In particular NN::loss(parm, grad) of README '3-layer Neural Network with Jump Connection' returns the sum of the squared residuals of the network, leaves its gradient with respect to all 25 parameters in grad whatever grad held before, changes nothing else that the caller can see and frees what it allocated; hence any optimiser that calls it visits the points it would visit with exact derivatives.", "quantifier": "for every program, every data set, all parameters and all pointers; for every non-empty data set, every placement and content of allocated memory, every optimiser and number of rounds", "why_tests_cant": "the README compares nothing and its printed values are copied from another example; a wrong offset of one of the six views or an adjoint left over from a previous row or call shows only as a slightly wrong gradient", "anchors": ["README.md: 3-layer Neural Network with Jump Connection", "example/ceres_3layer_neural_net/src.cpp: NNfunctor::Evaluate", "include/fastad_bits/reverse/core/dot.hpp: DotNode", "include/fastad_bits/reverse/core/var_view.hpp: VarView", "include/fastad_bits/reverse/core/constant.hpp: ConstantView", "include/fastad_bits/reverse/core/bind.hpp: bind"]}
{"id": "C47", "title": "Programs are reproducible bit by bit in any arithmetic, and compound assignments are undone exactly", "statement": "With rounding, overflow and NaN (in any arithmetic, without assuming any law): evaluate of a bound program with placeholders and compound assignments has no undefined behaviour and executes its statements one after the other in that arithmetic. The numbers returned by autodiff, the resulting adjoints and the values left in the placeholders are a function of the other variables, the constants, the seed and the previous adjoints only - not of where the caches were allocated, what was in them, what the placeholders held or what was computed before. Every variable that the program updates with a compound assignment has exactly its old value again after autodiff.", "quantifier": "for every scalar type and every interpretation of its operations, every program, every placement, every content of uninitialised memory and every history", "why_tests_cant": "undoing x *= 0 or x += 1e300 by the inverse operation works for most test values and fails for others; a dependence on stale memory shows only for particular contents of that memory", "anchors": ["include/fastad_bits/reverse/core/eq.hpp: EqNode, OpEqNode::feval, OpEqNode::beval", "include/fastad_bits/reverse/core/glue.hpp: GlueNode", "include/fastad_bits/reverse/core/for_each.hpp: ForEachIterNode", "include/fastad_bits/reverse/core/bind.hpp: bind", "include/fastad_bits/reverse/core/eval.hpp: evaluate, autodiff"]}
{"id": "C48", "title": "bind_cache_size() asks for exactly the storage that is needed", "statement": "README.md: bind_cache_size() will return exactly how many doubles are needed for values and adjoints, and an expression that is not bound to any storage must not be evaluated. If evaluate (evaluate_adj) of an expression bound to a pair of pointers is defined, then all bind_cache_size() value cells (adjoint cells) from the pointer on are allocated: with any shorter buffer the call is undefined behaviour. A program whose variables are alive and outside of the buffers can be differentiated without undefined behaviour if and only if these cells are allocated. Every call on an unbound expression that stores a value is undefined behaviour.", "quantifier": "for every scalar type, every expression and program without if_else and without nodes that the backward pass does not reach, all pointers and all states of the memory", "why_tests_cant": "over-allocation is invisible to tests: everything works, only memory is wasted; a missing cell is visible only if the neighbouring memory is unmapped or checked", "anchors": ["README.md: Basic Usage (bind_cache_size, segfault)", "include/fastad_bits/reverse/core/bind.hpp: bind, ExprBind", "include/fastad_bits/reverse/core/if_else.hpp: IfElseNode::bind_cache_size", "include/fastad_bits/reverse/core/binary.hpp: BinaryNode::single_bind_cache_size", "include/fastad_bits/reverse/core/sum.hpp: SumIterNode", "include/fastad_bits/reverse/core/eq.hpp: EqNode::bind_cache_size"]}
{"id": "C49", "title": "Placeholders never cost cache cells, and may save exponentially many", "statement": "README.md: placeholder expressions save a lot of memory. Writing an expression r in place of each of the k mentions of a variable w costs k times the cells of r; the program (w = r, e) needs the cells of r once, less those of its root node. For every program that assigns operations to distinct placeholders, each used later, and ends with an expression: the value cache together with the values of the placeholders is at most the value cache of the expression without placeholders, and the adjoint cache is smaller by at least the adjoints of the root nodes of the right-hand sides. Repeated squaring w1 = w0*w0, ..., wn*wn needs n + 1 value cells instead of 2^(n+1) - 1.", "quantifier": "for every scalar type, every well-formed expression and every chain of placeholder assignments of any length", "why_tests_cant": "the amount of memory is never compared in tests, and is compared for single expressions only if at all", "anchors": ["README.md: Placeholder", "include/fastad_bits/reverse/core/eq.hpp: EqNode::bind_cache_size, EqNode::bind_cache", "include/fastad_bits/reverse/core/glue.hpp: GlueNode::bind_cache_size", "include/fastad_bits/reverse/core/for_each.hpp: ForEachIterNode::bind_cache_size"]}
{"id": "C50", "title": "Statements in any order: values are those of imperative execution, and nothing is undefined", "statement": "For sequences of assignments, compound assignments and expressions in any order - a variable may be assigned several times, used before it is assigned, or be both a placeholder and the target of compound assignments - evaluate returns the value of the last statement and leaves in memory what the statements assign when executed one after the other; evaluate_adj (even without evaluate before it, on any contents of memory) and autodiff have no undefined behaviour and change only the cells of the binding, the values of assigned variables and the adjoints of mentioned variables. (The gradient is right only if every placeholder is assigned once, before it is used: C02.)", "quantifier": "for every scalar type, every tree of well-formed statements, every placement of the caches, every content of memory and every seed", "why_tests_cant": "tests assign each placeholder once; whether the backward pass of some other order reads or writes outside the allocated cells depends on the whole sequence and on stale contents of memory", "anchors": ["include/fastad_bits/reverse/core/eq.hpp: EqNode, OpEqNode::feval, OpEqNode::beval", "include/fastad_bits/reverse/core/glue.hpp: GlueNode", "include/fastad_bits/reverse/core/for_each.hpp: ForEachIterNode", "include/fastad_bits/reverse/core/var_view.hpp: VarView::operator=", "include/fastad_bits/reverse/core/eval.hpp: evaluate, evaluate_adj, autodiff"]}
{"id": "C51", "title": "Several bound programs used in turn do not disturb each other", "statement": "Let programs be bound to non-overlapping buffers, such that no program assigns a variable another one mentions and no two mention variables with the same adjoint (they may read the same values, through views with separate adjoints). Then any sequence of calls of evaluate, evaluate_adj and autodiff on them, in any order - e.g. evaluate of one, evaluate of another, evaluate_adj of the first - is defined; every program returns exactly what it returns when its calls are made alone, the cells it mentions and its buffers end up with exactly the same contents, and no other memory changes. Two interleavings with the same calls per program in the same order end with the same memory.", "quantifier": "for every scalar type, every family of trees of well-formed statements, every sequence of calls of any length, every content of memory and all seeds", "why_tests_cant": "hidden shared state (a static cache, a write outside the own buffer) shows only for particular interleavings of calls on particular programs; the number of interleavings is exponential", "anchors": ["include/fastad_bits/reverse/core/eval.hpp: evaluate, evaluate_adj, autodiff", "include/fastad_bits/reverse/core/bind.hpp: bind", "include/fastad_bits/reverse/core/expr_base.hpp: ExprBase", "include/fastad_bits/reverse/core/eq.hpp: EqNode, OpEqNode", "README.md: Basic Usage (bind_cache)"]}
{"id": "C52", "title": "Log-densities follow data that are exchanged between evaluations", "statement": "A ConstantView refers to memory the user may overwrite between evaluations (README: the row buffers of the regression example). A log-density of constant views evaluates to the log-density at the current data, and its backward pass to the gradient there, whatever the data were when the node was constructed and at earlier evaluations; a loop that copies each row of a data set into the buffers and calls autodiff accumulates the log-likelihood of the data set, and its gradient in the adjoints. Exactly: an array constant may be exchanged if and only if the constructor of the node does not compute anything from it.", "quantifier": "for every specialisation of the log-density nodes, all operand types, all histories of evaluations, all data sets of any length, any sum of log-densities over arbitrary operand expressions", "why_tests_cant": "tests construct each node with the data it is evaluated at; whether a specialisation caches a function of the data is visible only if the data are changed afterwards, for each of the 19 specialisations and constness patterns", "anchors": ["README.md: Simple Linear Regression Model (constant_view)", "include/fastad_bits/reverse/stat/normal.hpp: NormalAdjLogPDFNode::NormalAdjLogPDFNode", "include/fastad_bits/reverse/stat/uniform.hpp: UniformAdjLogPDFNode::update_x_cache", "include/fastad_bits/reverse/stat/bernoulli.hpp: BernoulliAdjLogPDFNode::update_x_cache", "include/fastad_bits/reverse/stat/wishart.hpp: WishartAdjLogPDFNode::update_x_cache", "include/fastad_bits/reverse/stat/cauchy.hpp: CauchyAdjLogPDFNode", "include/fastad_bits/reverse/core/constant.hpp: ConstantView"]}
{"id": "C53", "title": "Blocks with placeholders can be used as operands", "statement": "README.md writes programs with placeholders as whole expressions; the comma expression is itself an expression. A block (w1 = e1, ..., wn = en, r) may be used as an operand anywhere - under functions and operators, in the condition and branches of if_else, in sums, products, reductions and log-densities, and in the definitions or results of other blocks - and then stands for r with the definitions substituted: if every placeholder is assigned once and mentioned only in its block after the assignment, and the adjoints of the placeholders are zero before the pass, evaluate and autodiff are defined, return the value of the substituted function, add its gradient to the adjoints of all other variables, and change nothing else outside of the caches and the placeholders.", "quantifier": "for every expression with blocks nested to any depth at any position, every shape, every placement of the caches, every later state of memory and all seeds", "why_tests_cant": "the backward pass of a block relies on the enclosing node calling it exactly once, after all uses and before all definitions; the combinations of enclosing nodes, positions and depths are unbounded", "anchors": ["include/fastad_bits/reverse/core/glue.hpp: GlueNode::feval, GlueNode::beval, GlueNode::bind_cache", "include/fastad_bits/reverse/core/eq.hpp: EqNode::feval, EqNode::beval, EqNode::bind_cache", "include/fastad_bits/reverse/core/if_else.hpp: IfElseNode::beval", "include/fastad_bits/reverse/core/binary.hpp: BinaryNode::beval", "README.md: Placeholder"]}
{"id": "C54", "title": "Results converge to the exact ones with growing precision", "statement": "Let an expression (functions, operators, products, sums, norms, dot products, if_else, normal log-densities with scalar or vector sigma, scalar Cauchy and uniform log-densities; no determinants and other log-densities) be compiled for scalar types of growing precision, bound and differentiated, from any history of the object. If the values of variables and constants, the adjoints before the call and the seeds tend to real numbers, and the exact evaluation at the limit applies every operation inside its domain (no division by 0, no comparison of equal numbers, ...), then all runs are defined, the returned value tends to the mathematical value, and each adjoint tends to its initial value plus the exact partial derivative. Arithmetics whose operations are rounded with error at most eps*(1+|x|), eps tending to 0, for results x in a range that grows beyond all bounds, are of this kind, in particular floating-point formats with more and more digits and larger and larger exponents. Factors of prod and bases of powers must not tend to 0: the code divides the computed product by the factor, which is useless when the product has been rounded to 0. The same holds for programs with placeholders and compound assignments, whatever the placeholders hold.", "quantifier": "for every family of arithmetics that become exact, every well-formed expression and program, every placement of the caches, every history, all limits of values, adjoints and seeds", "why_tests_cant": "tests compare double results with a tolerance at single points; they cannot tell a result that is off by a rounding error from one whose error does not vanish with the precision", "anchors": ["include/fastad_bits/reverse/core/eval.hpp: autodiff, evaluate, evaluate_adj", "include/fastad_bits/reverse/core/unary.hpp: UnaryNode::beval", "include/fastad_bits/reverse/core/binary.hpp: BinaryNode::beval", "include/fastad_bits/reverse/core/pow.hpp: PowNode::beval", "include/fastad_bits/reverse/core/prod.hpp: ProdElemNode::beval, ProdIterNode::beval"]}
{"id": "C55", "title": "Reverse mode over forward variables computes gradients and Hessians", "statement": "hessian.hpp: an expression over ForwardVar scalars is differentiated once per variable, with the tangent of that variable set to 1. For every expression of functions that forward variables have, at values inside the open domains: autodiff returns the value and, as tangent, the directional derivative; every adjoint increases by the partial derivative and its tangent by the directional derivative of the partial derivative (the Hessian applied to the tangents); the loop hessian_gen returns the gradient and the matrix of second partial derivatives, which is symmetric. Programs with placeholders and compound assignments give directional derivatives of gradients in the same way, if the adjoints of the assigned variables are 0 before the pass. (False with erf, whose forward derivative ignores the tangent; the loop is false for placeholders, whose adjoints it does not reset between its rounds. The header is not included by the library and uses an outdated interface; the property is about its loop applied to a bound expression.)", "quantifier": "for every well-formed expression (arrays and scalars) and every program, all values and tangents, every placement of the caches, every history, any number of variables", "why_tests_cant": "the header is not even compiled by the present tests, and the old test checks three functions at three points; rounding hides missing second-order terms at symmetric points", "anchors": ["include/fastad_bits/reverse/core/hessian.hpp: hessian_gen, compute_hess", "include/fastad_bits/forward/core/forward.hpp: ADForward", "include/fastad_bits/reverse/core/unary.hpp: UnaryNode::beval", "include/fastad_bits/reverse/core/binary.hpp: BinaryNode::beval", "include/fastad_bits/reverse/core/eval.hpp: autodiff", "test/reverse/core/hessian_unittest.cpp"]}
{"id": "C56", "title": "Binding computes no invalid pointers", "statement": "While bind distributes the caches over the nodes of an expression, every pointer addition and subtraction is one the C++ standard defines: the result stays inside an array or one past its end, and only 0 is added to a null pointer. (False for nodes that keep no adjoint, whose binding computes nullptr + size, and for assignments that hand out cells past the end of the caches and take them back; true of everything else.)", "quantifier": "for every expression, with compound assignments and sequences, all addresses of the caches and variables, all contents of memory", "why_tests_cant": "the undefined computations yield the expected result with usual compilers, and are not noticed without a sanitizer for pointer overflow; whether a pointer leaves the cache depends on the expression", "anchors": ["include/fastad_bits/reverse/core/value_view.hpp: ValueView::bind", "include/fastad_bits/reverse/core/value_adj_view.hpp: ValueAdjView::bind", "include/fastad_bits/reverse/core/eq.hpp: EqNode::bind_cache", "include/fastad_bits/reverse/core/sum.hpp: SumElemNode::bind_cache", "include/fastad_bits/reverse/core/glue.hpp: GlueNode::bind_cache", "include/fastad_bits/reverse/core/bind.hpp: ExprBind"]}
{"id": "C57", "title": "Errors of values and gradients are proportional to the unit of rounding", "statement": "For every expression, and every program with placeholders and compound assignments, of functions, operators, products, sums, norms, dot products, if_else and the log-densities of normal (scalar or vector sigma), scalar Cauchy and uniform distributions, and every point at which the exact evaluation stays inside the domains of all operations (no division by 0, no comparison of equal numbers, no vanishing factor of prod, valid parameters and possible observations of log-densities), there are constants C, M and delta > 0 such that in every arithmetic whose operations are rounded with error at most eps*(1+|x|), eps < delta, for results x of absolute value at most M (such as floating-point formats with sufficiently many digits and sufficiently large exponents), autodiff of the bound expression is defined whatever happened before, the returned value differs from the mathematical value by at most C*eps, and each adjoint differs from its initial value plus the exact partial derivative by at most C*eps, if the inputs are accurate up to a multiple of eps. In particular the backward pass has no catastrophic loss of accuracy: its error is of the same order as that of the forward pass. The same holds for the values and tangents of straight-line programs over ForwardVar (erf applied to operands of tangent 1 only).", "quantifier": "for every well-formed expression and program, all values, adjoints and seeds, every rounding function, every placement of the caches and every history; the constants do not depend on the rounding, the memory or the history", "why_tests_cant": "tests compare double results with a tolerance at single points and in one arithmetic; a loss of accuracy by a difference quotient or by cancellation in a backward formula shows only at other precisions", "anchors": ["include/fastad_bits/reverse/core/eval.hpp: autodiff, evaluate, evaluate_adj", "include/fastad_bits/reverse/core/unary.hpp: UnaryNode::beval", "include/fastad_bits/reverse/core/binary.hpp: BinaryNode::beval", "include/fastad_bits/reverse/core/pow.hpp: PowNode::beval", "include/fastad_bits/reverse/core/eq.hpp: OpEqNode::beval", "include/fastad_bits/forward/core/forward.hpp: FORWARD_UNARY_FUNC, FORWARD_BINARY_FUNC", "include/fastad_bits/forward/core/dualnum.hpp: DualNum"]}
{"id": "C58", "title": "The example program prints the partial derivatives it announces", "statement": "example/main.cpp prints the partial derivatives of f(x, y) = exp((x * sin(y) + x * y) * x * sin(y)), computed by forward mode, by reverse mode with three placeholders, and by reverse mode with std::vectors of variables. For any numbers x, y the program has no undefined behaviour, prints the exact partial derivatives of this function, and the three computations agree.", "quantifier": "for all real x and y, every placement of variables and buffers, all contents of memory", "why_tests_cant": "the program has no test and prints numbers for one point without checking them; that the three ways agree for all arguments is a statement about all pairs of reals", "anchors": ["example/main.cpp: forward, reverse_simple, reverse_vec, main", "include/fastad_bits/forward/core/forward.hpp: ADForward", "include/fastad_bits/reverse/core/eq.hpp: EqNode", "include/fastad_bits/reverse/core/glue.hpp: GlueNode", "include/fastad_bits/reverse/core/var.hpp: Var", "include/fastad_bits/reverse/core/eval.hpp: autodiff"]}
{"id": "C59", "title": "Assignment between expressions makes the left one equal to the right one", "statement": "After e = f for two expressions, two views or two bound expressions of one type, e stands for what f stands for, independently of f, and no variable has changed its value or its adjoint.", "quantifier": "for every pair of expressions of one type and every state of memory", "why_tests_cant": "The copy assignments are implicit; the tests never assign expressions, and undefined behaviour through null maps need not be visible.", "anchors": ["include/fastad_bits/reverse/core/value_view.hpp: ValueView", "include/fastad_bits/reverse/core/value_adj_view.hpp: ValueAdjView", "include/fastad_bits/reverse/core/var_view.hpp: VarView", "include/fastad_bits/reverse/core/bind.hpp: ExprBind"]}
{"id": "C60", "title": "Assigning a variable to a placeholder is rejected or means what it says", "statement": "A program containing w = x for two variables is rejected by the compiler, as eq.hpp documents, or it computes what it computes when w = x assigns the value of x to w each time the program is evaluated, and autodiff adds the derivatives of that function.", "quantifier": "for all programs of well-formed statements and assignments w = x between variables or views, and all states of memory", "why_tests_cant": "Whether an overload is chosen is not visible in a test that evaluates the program only once right after building it: the copied value is then the right one.", "anchors": ["include/fastad_bits/reverse/core/eq.hpp: EqNode", "include/fastad_bits/reverse/core/var.hpp: Var::operator=", "include/fastad_bits/reverse/core/var_view.hpp: VarView::operator=", "include/fastad_bits/reverse/core/glue.hpp: operator,"]}
{"id": "C61", "title": "Bound expressions follow their variables", "statement": "An expression bound once stays an expression of the same variables whatever the program does to them afterwards: as long as the variables exist (having been written, copied from, assigned, moved to other objects, while other variables and bound expressions come and go), evaluate returns its value at their current values and autodiff adds the exact derivatives to their current adjoints and changes no other variable. This includes expressions with placeholders and compound assignments, which change their own variables as written. (False when a scalar variable is moved or an array variable is move-assigned: the expression then reads freed or foreign storage; true of everything else, in particular of moved arrays.)", "quantifier": "for every sequence of creations, copies, moves, assignments, destructions, views, writes, bindings, evaluations and differentiations (at once or by evaluate and evaluate_adj), moves and destructions of bound expressions, all shapes, values and seeds, every behaviour of the allocator", "why_tests_cant": "tests bind and evaluate at once while the variables stay where they are; dangling pointers after the growth of a container of variables show up only by accident", "anchors": ["include/fastad_bits/reverse/core/var.hpp: Var constructors, operator=, rebind", "include/fastad_bits/reverse/core/var_view.hpp: VarView", "include/fastad_bits/reverse/core/bind.hpp: ExprBind", "include/fastad_bits/reverse/core/eval.hpp: evaluate, autodiff"]}
{"id": "C62", "title": "Memory is given back exactly once", "statement": "Whatever a program does with variables, views and bound expressions (creating, copying, moving, assigning, destroying, binding, evaluating, differentiating, in any order the documentation allows), no memory is freed twice or freed without having been allocated, and none is leaked: at every moment each allocated cell has exactly one owner that still exists (memory of the user, the buffer of a variable, the cache of a bound expression), and when all variables and bound expressions are gone, exactly the memory that was allocated before the program is allocated. The same holds when bound expressions are copied and moved.", "quantifier": "for every legal sequence of steps, all shapes, values and seeds, every behaviour of the allocator", "why_tests_cant": "needs all interleavings of lifetimes; the tests neither move nor reassign variables while expressions of them are bound, and leaks are not noticed without instrumentation", "anchors": ["include/fastad_bits/reverse/core/var.hpp: Var constructors, operator=", "include/fastad_bits/reverse/core/bind.hpp: ExprBind"]}
{"id": "C63", "title": "The small example programs of the README compute what they announce", "statement": "The programs of the README sections Basic Usage (sin(x) + cos(v) with a unit seed; the more complicated example with placeholders w = dot(M, v1) + v2, r = sum(w) * sum(w * v2)) and Quadratic Expression Differential (x^T*Sigma*x through VarView) have no undefined behaviour and compute, for numbers and sizes in place of the ones written there: cos(x) and -sin(v_i) at the seeded index (0 at the others); with S = sum(w), T = w.v2, g = T + S*v2 the value S*T and the adjoints M^T*g of v1, g + S*w of v2, g*v1^T of M; the value x^T*Sigma*x and the adjoints (Sigma + Sigma^T)*x, which is [5.6, 10.2] for the numbers of the README.", "quantifier": "for all numbers of rows and columns, all values of vectors and matrices (Sigma symmetric or not), every seeded index, every placement of the caches, all contents of memory", "why_tests_cant": "the programs of the README are not compiled by the tests; the numbers stated there are for one point, and for a symmetric matrix a transposed product would go unnoticed", "anchors": ["README.md: Basic Usage, Quadratic Expression Differential", "include/fastad_bits/reverse/core/dot.hpp: DotNode::feval, DotNode::beval", "include/fastad_bits/reverse/core/transpose.hpp: TransposeNode", "include/fastad_bits/reverse/core/sum.hpp: SumElemNode", "include/fastad_bits/reverse/core/var_view.hpp: VarView", "include/fastad_bits/reverse/core/bind.hpp: bind", "include/fastad_bits/reverse/core/eval.hpp: autodiff"]}
{"id": "C64", "title": "The benchmark loops differentiate the function they are compared with", "statement": "BM_sumnode_fastad and BM_prod_fastad (iterated sum or product of x*x over n scalar variables into a placeholder w4, then w5 = w4*w4 + sin(w4) or cos(w4), bound once and differentiated in every round) have no undefined behaviour; every round returns f_test(x), the function that the same benchmark differentiates by finite differences; and because no adjoint is reset, after N rounds the adjoints of the variables are exactly (N+2 choose 3) times the partial derivatives of f_test: the gradient after one round, 4 times the gradient after two, 10 times after three. BM_normal_repeated_stddev (a sum over data of -0.5*pow<2>((v - w*u)/2) - log(2), whose constants are folded when it is built) returns the log-likelihood in every round and leaves N times its derivative, as it has no placeholders. BM_repeated_constants returns log of the constant from every copy in every round, without bound memory.", "quantifier": "for every number of variables, all real values (zeros included, as in the product benchmark), every number of rounds, every placement of the cache, all contents of memory", "why_tests_cant": "the benchmarks discard all results; the growth of the adjoints over the rounds is never looked at", "anchors": ["benchmark/sum_benchmark.cpp: f_test, BM_sumnode_fastad", "benchmark/prod_benchmark.cpp: f_test, BM_prod_fastad", "benchmark/constant_eager_benchmark.cpp: BM_normal_repeated_stddev, BM_repeated_constants", "include/fastad_bits/reverse/core/sum.hpp: SumIterNode", "include/fastad_bits/reverse/core/prod.hpp: ProdIterNode", "include/fastad_bits/reverse/core/eq.hpp: EqNode", "include/fastad_bits/reverse/core/glue.hpp: GlueNode", "include/fastad_bits/reverse/core/eval.hpp: autodiff"]}
{"id": "C65", "title": "Sums and products over a range of variables refer to the variables", "statement": "ad::sum(begin, end, f) and ad::prod(begin, end, f) over n variables, with f returning each of them, are expressions of these variables: bound once, autodiff returns the sum or product of the values that the variables have at that time, and adds 1 or the product of the others to each adjoint; hence BM_test1_fastad computes f_test1 and its gradient. (True when f returns views. False when f returns the element of a range of Var objects by value, as the benchmark does: the node then owns copies of the variables; the value is that of the time of building, and no adjoint of the variables is changed through the node. In the benchmark every partial derivative lacks 1 + exp(w1 - w0), and the adjoints of the variables from the fourth on stay 0 in all rounds.)", "quantifier": "for every number of variables, all real values, all later changes of the variables, every number of rounds of the benchmark, every placement of the copies and of the cache, all contents of memory", "why_tests_cant": "the functions in the tests always return nodes, never the variable itself; the benchmark discards its results", "anchors": ["include/fastad_bits/reverse/core/sum.hpp: sum, SumIterNode", "include/fastad_bits/reverse/core/prod.hpp: prod, ProdIterNode", "include/fastad_bits/reverse/core/var.hpp: Var(const Var&), rebind", "benchmark/ad_benchmark.cpp: f_test1, BM_test1_fastad", "include/fastad_bits/reverse/core/bind.hpp: ExprBind", "include/fastad_bits/reverse/core/eval.hpp: autodiff"]}
{"id": "C66", "title": "The benchmarks of the multivariate normal log-density compute its value and gradient", "statement": "BM_normal_adj_log_pdf and BM_normal_adj_log_pdf_flat (three views laid out in two vectors, covariance matrix L*L^T with L lower triangular, 10 on the diagonal and random numbers below) have no undefined behaviour in the library, need one attempt to find a valid covariance matrix, and agree with each other; every round returns the log-density at the elements of x, and after N rounds the adjoints are N times its gradient with respect to x, mu and sigma, whatever these elements are; as x.get().Random() and mu.get().Random() discard what they return, every round returns the log-density at x = mu = 0, which is -n*log(10) whatever the random numbers are, and after N rounds the adjoints are N times its gradient: 0 for x and mu, -N/2 times the inverse covariance matrix for sigma.", "quantifier": "for every dimension, all random numbers, all elements of x and mu, every number of rounds and every memory", "why_tests_cant": "the benchmark checks no result; random numbers and dimensions are unbounded", "anchors": ["benchmark/normal_benchmark.cpp: make_cov, BM_normal_adj_log_pdf, BM_normal_adj_log_pdf_flat", "include/fastad_bits/reverse/stat/normal.hpp: NormalAdjLogPDFNode (vec, vec, mat)", "include/fastad_bits/reverse/core/value_adj_view.hpp: bind"]}
{"id": "C67", "title": "The adjoints are those that the integration tests expect, for any values of the variables", "statement": "F_test, F_with_constant_test, G_test and H_test of test/integration/ad_inttest.cpp (placeholders, a constant, sums over a range of variables, variables that do not occur in the expression) run without undefined behaviour, and the five adjoints in the end are the numbers written in the tests, with any five numbers in place of those of the fixture and any constant in place of 3.14.", "quantifier": "for all real values of the five variables and of the constant, every placement of the cache, all contents of memory", "why_tests_cant": "the tests check one point; the property says the same about every point", "anchors": ["test/integration/ad_inttest.cpp: F_lmda, G_lmda, H_lmda, ad_fixture", "include/fastad_bits/reverse/core/glue.hpp: GlueNode", "include/fastad_bits/reverse/core/eq.hpp: EqNode", "include/fastad_bits/reverse/core/sum.hpp: sum, SumIterNode", "include/fastad_bits/reverse/core/eval.hpp: autodiff"]}
{"id": "C68", "title": "A compound assignment between overlapping parts of one vector differentiates correctly", "statement": "For a vector of n >= 2 elements with head = the first n-1 and tail = the last n-1 elements, the program (tail += scl * head, sum(tail)) has no undefined behaviour although head and tail overlap; autodiff returns sum(tail) + scl*sum(head) with the values before, and the adjoints are scl for the first element, 1 for the last, 1 + scl for the others, and sum(head) for scl, as the test leaf_opeq_head_tail expects.", "quantifier": "for every size, all real values, every placement of the cache and its contents, all contents of memory", "why_tests_cant": "the test checks one vector of five elements; overlapping reads and writes are where element order and stale values matter", "anchors": ["test/integration/node_inttest.cpp: leaf_opeq_head_tail", "include/fastad_bits/reverse/core/eq.hpp: OpEqNode", "include/fastad_bits/reverse/core/var_view.hpp: head, tail", "include/fastad_bits/reverse/core/sum.hpp: SumElemNode"]}
{"id": "C69", "title": "Many compound assignments of the same vector and scalar differentiate correctly and are undone", "statement": "The program of the test leaf_opeq_many_nested (eight compound assignments +=, -=, *=, /= of a vector and of a scalar, whose right-hand sides mention the variables assigned, followed by the sum of the vector) has no undefined behaviour; autodiff returns 1/(scl-2)*(2*sum(vec)-n)-n with the values before, the adjoints are 2/(scl-2) for every element and -1/(scl-2)^2*(2*sum(vec)-n) for the scalar, as the test expects, and afterwards vector and scalar have their old values.", "quantifier": "for every size n >= 1, all real values of the elements, every scalar other than 0 and 2, every placement of the cache and its contents, all contents of memory", "why_tests_cant": "the test checks one vector of five elements and one scalar, and does not look at the values afterwards", "anchors": ["test/integration/node_inttest.cpp: leaf_opeq_many_nested", "include/fastad_bits/reverse/core/eq.hpp: OpEqNode", "include/fastad_bits/reverse/core/glue.hpp: GlueNode", "include/fastad_bits/reverse/core/sum.hpp: SumElemNode"]}
