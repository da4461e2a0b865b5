# Formal model of pynare: design

The model is written in Lean 4 (module tree `lean/Verif`).  Nothing of the
repository is executed; every definition carries a comment with the file and
lines of `/repo` it mirrors and says where it is simplified.

## Trusted base

* The Lean 4 kernel, and the axioms `propext`, `Classical.choice`, `Quot.sound`
  (printed at the end of every `Verif/Props/*.lean` file with `#print axioms`).
  No axioms of our own, no `sorry`, no `native_decide`, no `bv_decide`.
* The hand translation from Python to Lean.  The conventions are:
  * Python exceptions are values: a function that can raise returns
    `Except Err α`, the constructor naming the Python exception class.
  * A loop that need not terminate is a step function or a fuelled function; "does
    not terminate" is the statement that every amount of fuel runs out.
  * `dict` is an insertion-ordered association list with unique keys.
  * Numbers of the expression evaluator are an abstract type with abstract
    operations (`Ops V`) that may fail.  Theorems about evaluation therefore hold
    for IEEE floats too.
  * Linear-algebra code is modelled over an arbitrary field (or an ordered field /
    the reals where order matters) with exact arithmetic.  LAPACK calls (QZ, QR, Schur,
    Cholesky, `solve`, `inv`, Lyapunov) are parameters constrained by the equations
    they promise; rounding is not modelled.  What `autograd` returns is a parameter too,
    constrained to be the derivatives of the function it is given, wherever it answers.

## Not modelled

Floating-point rounding, pandas/matplotlib rendering, numerical optimisers used for
steady states, how autograd differentiates, and file-system access.

## Modules and properties

| ids | module | what is modelled | how proved |
|---|---|---|---|
| C01-C05 | `Calib` | `order_precedence`, `solve_calibration`, `ModelCalibration` set/del | pass invariant on the precedence table, induction over the topological order, history invariant |
| C06-C10, C15 | `Lexer` | character-level lexer with position, comments, numbers, names, symbols | step function on the remaining characters; induction on text; negation witnesses for non-terminating comments |
| C11-C14, C16 | `Parser` | recursive-descent parser on token lists | soundness and completeness against an inductive grammar; print/parse round trip |
| C84 | `Parser`, `FileGram` | the parser of whole model files | grammar of files as inductive relations on tokens; completeness and soundness block by block |
| C17-C19 | `Expr` | AST, evaluator, substituter | structural induction |
| C20-C22 | `Semantics` | semantic analyser as a fold over the file tree | induction over statements, symbol-table invariant |
| C23-C27 | `Factory` | outline construction: boundary values, shocks, parameters, equations, incidence | induction over statements; negation witnesses |
| C28-C32, C69 | `Index` | `llx`, `dr_order`, `dc_order`, type counts | list lemmas over the incidence table |
| C33-C36 | `Exprs` | `steady_func`, `dynamic_func`, linearisation point | structural induction on the equation |
| C37-C42, C70, C71 | `ModelObj` | covariance matrix, edit/read state machine, copy, lookup, expression container, regimes | invariants over histories |
| C73 | `Arr`, `FirstOrder`, `Index` | the state space and the first-order solver, with the library answering whenever there is an answer | from exactly one bounded path every linear system is shown to be regular, step by step |
| C43-C48, C68, C72 | `Arr`, `FirstOrder`, `Sylvester` | block formulas of the first-order solution, back-substitution, shingle, Kronecker | matrix algebra (Mathlib `Matrix`) |
| C85-C88 | `Nd`, `SecondOrder` | the second-order solver: reordered hessian, system, four arrays, with numpy's loss of dimensions of length one | each array satisfies its equation (entries of Kronecker products), contraction with states and shocks gives the second-order part of every equation; uniqueness of the Sylvester solution gives symmetry |
| C89 | `Mean` | mean at both orders | expectation as a linear map from a module; the deviation solves a linear equation with one solution |
| C90 | `SpaceObj` | the state-space object with its caches and flag | induction over sequences of requests |
| C91-C93 | `Sample` | sample correlation and autocorrelation of simulated paths | Cauchy-Schwarz, affine substitution in sums |
| C49-C56, C74, C75 | `Simul` | simulation recursions, shock generation, impulse responses | induction on time |
| C57-C61, C76, C77 | `OccBin` | regime location, guess-and-verify loop, time-varying rules | induction on the loop and backward in time |
| C62-C66, C81-C83 | `Stats` | covariance, correlation, autocovariance, variance decomposition, data columns | processes in a module with a bilinear form as covariance; powers of the transition matrix vanish; positive semidefiniteness, Cauchy-Schwarz |
| C94-C97 | `Summary` | tables printed for first- and second-order solutions, as labels and numbers | permutations and products of lists; negation witnesses |
| C98-C100 | `Steady` | choice of the method, the objective of least squares, the object that keeps the result; the minimiser is a parameter | case analysis; sums of squares in ordered rings; histories; negation witnesses |
| C101-C108 | `Solve` | the solution slot of a model and the transition arrays of its state space, under all requests; solvers are parameters | invariants over histories; negation witnesses |
| C109-C112 | `Linear` | arrays of derivatives; `autograd` is a parameter that is exact where it answers | first and second Taylor expansions of the composed functions; uniqueness of derivatives |
| C113-C117 | `Binding` | constraints evaluated on columns; checks of arguments; arrays and constants of regimes | induction on expressions; derivatives at two points |
| C118-C123 | `Reading` | `from_path`, `read_model`, `from_outline` as one function from texts to models | composition of the theorems on lexer, parser, factory, calibration, residuals and covariance |
| C124-C127 | `Filter` | the loop of the Kalman filter, `KalmanFilter`, `filter_model`, `ObservedModel` | invariant of the recursion (errors orthogonal to data, their covariances), weights by recursion; refinement to the residual theorems for observed models |
| C128-C135 | `Report` | `Summary`, `ModelSummary`, `ModelStatisticsSummary`, `_summarize_array` as texts, `ModelCalibration.__str__`, `ModelStatistics` | texts are taken apart again by a separate reader (lines, words, decimal numbers); induction over digits, cells and lines |
| C136-C141 | `OccTime` | `OccBinSolution` as an object, the two solvers of `binding.py` compared with each other and with themselves on other inputs | a simulation relation between two searches, lifted from guesses to dates |
| C142-C146 | `Stability` | what `verify` counts, what `partitioned_qz` cuts, and the paths of a solved model | numbers are embedded in the complex numbers; the eigenvalues of the leading block are those of the transition matrix, whose powers decline by Gelfand's formula; the trailing block forces the forward-looking part of bounded paths |
| C147 | `StabilitySecond` | the recursion of second-order simulations | a variation of constants over the first-order recursion, with the products bounded by induction over the periods |
| C148 | `Check` | the check, the state space and all bounded solutions of its pencil | the pencil is split by the decomposition; bounded solutions are those without explosive coordinates; paths of the model and solutions of the pencil correspond, static variables being determined by the rank condition on them |
| C149-C151 | `Order` | two versions of a model from the equations to the solution, with the table of leads and lags, the residual functions, their derivatives, the state space, the solution, moments and simulated paths | the tables number the same occurrences differently; residuals and derivatives correspond; the linearised equations are the same by name, and C145 makes the bounded path unique in both; Cholesky factors are unique |
| C152 | `OrderCheck` | two versions of a model up to the check of the state space | by C148 the check says whether there is exactly one bounded path from every start, and the paths are the same by name |
| C153 | `SecondUnique` | the second-order solution, and any function that could take its place | the difference of two such functions, along the path of the first-order solution, is a bounded disturbance of the linearised equations; what follows from it solves them as well, so it is zero by C145 |
| C154 | `OrderSecond` | second-order solutions, the correction for risk and second-order simulations of one model written in two orders | what one order says, read by name in the other, solves the second-order part of the equations there; since that has only one solution (C153) the two agree. A period of a simulation is a combination of what the solution says at three points, so paths agree by induction |
| C155 | `Impulse` | the argument `exog` of `impulse_response`: nothing, a name, a list of names; where the shocks are put | the positions of names are those of C40; the deviations are linear in the shocks, and the joint shocks are the sum of the single ones |
| C156 | `Impulse` | simulations and impulse responses | the deviations are linear in initial values and shocks, and shifting a shock shifts its response; induction over periods |
| C157 | `ImpulseCov` | impulse responses, `covArr`, `autocov` | random variables are modelled as combinations of independent standardised shocks; the process whose coefficients are the impulse responses follows the policy function, so that its covariances have the limits of C62, and C64 for later periods |
| C158 | `ImpulseCov` | impulse responses, `decompShares` | the same with a single shock; the lower factor used for the decomposition is the transpose of the upper one used for simulations because triangular factors are unique |
| C159 | `Whole` | everything from the text to the solution: reading, `StateSpace(model)` with steady state and jacobian, `solve` | composes C118 (what the functions made from a file compute), C99 (the minimiser), C109 (derivatives) and C110 (accuracy); the residuals of the equations are those of the text by induction over expressions |
| C160 | `Whole` | the same with `solve(order=2)` | composes C118, C109 and C111 |
| C161 | `WholeOrder` | everything from the text to the first-order solution, for two files | the steady state is the only point at rest (C159) and being at rest does not depend on the order; reading gives the tables and functions C149 speaks about, which then gives the coefficients and paths |
| C162 | `Risk` | the second-order solver with `solve_del2`, the functions of the equations | the expectation of the second-order Taylor polynomial along the policy: terms linear in the shocks vanish, those quadratic in the shocks are the ones C86 balances, the rest as in C111; the system for the constant is linear in the covariances and has one solution |
| C163 | `RiskText` | everything from the text to the second-order solution, with the shocks block | composes C118, C109 and C162 |
| C164 | `SolvableSecond` | `solveSecondOrder`, `generalizedSylvester` | composes C73 and C87; each linear system of the second-order solution is shown to be regular because a null vector would give a second bounded path |
| C165 | `FileSolvable` | `fromText`, `MState.solve` | the bounded paths of the equations as written are those of the jacobian (derivatives along a direction), so C73 decides; reading, the steady state and the covariance are shown not to raise |
| C166 | `FileSolvable` | `fromText`, `MState.solve`, `secondSolution` | C165's reduction to state space and solution, then C164; counts of offsets in the file are those of the table |
| C167 | `Rewritten` | `fromText`, `MState.solve`, `firstSolution` | directions that satisfy the equations to first order carry over; bounded paths are unique (C145), so the policies agree |
| C168 | `WholeOrderSecond` | `fromText`, `MState.solve`, `secondSolution` | from the text to `SecondModel` (C118, C153), then C149 and C154 |
| C169 | `RewrittenSecond`, `RewrittenRisk` | `fromText`, `MState.solve`, `secondSolution` | curves that satisfy the equations to second order are the same for both files; uniqueness (C153); a pair of files for the constant |
| C170 | `Combined`, `CombinedCase` | `fromText`, `MState.solve`, `secondSolution` | derivatives of combined equations are the combinations of the derivatives, by expanding gaps along rays; then as for C154 |
| C171 | `ExprText` | `exprsText`, `fromText` | number of parts of a split is one more than the number of separators; white space before a text does not change its tokens |
| C172 | `Renamed` | `MState.create`, `MState.copy`, `MOp.run` | every function on dictionaries, calibrations, trees and shocks commutes with a change of names that is one-to-one on the names there are |
| C173 | `Eigvals` | `eigvalsSorted` | any sorting permutation keeps the list up to order |
| C174 | `Enlarged` | model files, `Enlarges` | the larger file implies the smaller one (C167); the solution is a function, so the converse follows |
| C175 | `Restated` | model files, `RestatedNear`, `WrittenIn` | the equations of the one at `y + h` are those of the other at `T (y + h)`, so the linearised equations agree after multiplication by the slopes; the solution is the only bounded path (C145) |
| C176 | `VarArray` | `VarArray` | inversion of the constructor |
| C177 | `VarArray` | texts of variables | texts are joined from comma-free parts, which can be read back |
| C178 | `Simul`, `Impulse`, `Whole` | the two simulations of the text, entry by entry | the relation between the policy functions (C175) is carried from period to period |
| C179 | `Whole`, `Steady`, `Reading` | `GivenInitial`, `SquaredGaps`, `StaysAtZero` | inversion of the reading of the file and of the state space; the objective entry by entry |
| C180 | `Whole`, `Stats` | `RestatedNear`, `ScaledSquare` | C175 on linear functionals of the process carries it from one policy to the other; then C146 and uniqueness of limits |
| C181 | `Whole`, `Factory`, `SecondOrder` | `DifferInShocks`, `Arr.Times` | The outlines differ in their shocks only; `build` uses them for the variances only; the system for the constant is linear in the covariances and has one solution |
| C182 | `Stats` | `Arr.Mix`, `Arr.Same`, `Arr.Times` | The Lyapunov equation has one solution for stable states, and the combination of two solutions solves the combined equation; the moments are linear in it |
| C183 | `Stats` | `Stable` | Induction over the lags; the autocovariance at a lag is a product with a power of the transition of the states, which vanishes |
| C184 | `Simul`, `Impulse` | `Arr.Times`, `CholUpper` | The factor of k² times a matrix is k times its factor, by induction over its rows; simulations are linear in the shocks (C50) |
| C185 | `Factory`, `Build`, `Whole`, `Impulse`, `Stats` | `BlockTimes`, `RootsOfBlock`, `DifferInShocks` | By C24 what the covariance matrix is; by C181 solutions are the same; then C182 and C184 |
| C186 | `FilterData` | the labels as lists of names | By cases on the kind of data |
| C187 | `Stats` | `Arr.Times`, `Arr.Same` | The lower factor is multiplied by k (C184), the solution of each Lyapunov equation by k² as it is unique |
| C188 | `Whole`, `SecondOrder` | `Arr.Mix`, `SolvedToSecond` | The steps before the correction do not read the covariances; its right-hand side is linear in them, and the linear system has one solution |
| C189 | `Messages`, `Calib` | `Determined` | The passes of the ordering reach a table that cannot be completed further; there exactly the determined parameters have a precedence |
| C190 | `Messages`, `FirstOrder` | texts in the statements | Case analysis of the checks; the message about static variables is shown to be another text than the one that states rank and number |
| C191 | `PlotArgs`, `Plot` | `FigureArg`, `DrawsAll` | Invariant of the loop that moves arguments from one dictionary to the other; refinement to the plots of C79 |
| C192 | `ErrorPos`, `Lexer` | `posAfter` | The objects of reserved words as a store that is written in the order of the text; induction over the tokens; C10 for the positions that are written |
| C67, C78-C80 | `Plot` | grid factorisation, arrangement of series on axes | arithmetic, permutations of lists |

## How to read the log of wrong programs

`seeded/LOG.jsonl` has one entry per edit of a definition, tried in a copy of the project.
`first_declarations_to_fail` are the declarations in which Lean reported an error.
`theorems_failed` are the property theorems among these, and those that use one of them according to a list of
dependencies. That a theorem uses a lemma that fails says that its proof breaks, and not by itself that its statement is
false. The list was made from an earlier build, so that theorems added later can be missing in `theorems_failed`.
An entry with no failing declaration, or with an example only, is one that no theorem caught when it was tried; its
`theorems_tightened` or `note` says what was done about it.

## Disagreements: properties the code does not satisfy

Each is refuted in Lean by a concrete witness; the part that holds is a `_partial` theorem.

* C05: a refused parameter assignment still changes the stored definitions
  (`C05_failed_set_pollutes`); deletion does not re-check (`C05_delete_leaves_dangling`).
* C06: in a model file, a line comment on the last line without newline, or an open block
  comment, makes the lexer loop for ever (`C06_unfinished_comment_hangs`).
* C08: a star, or a slash after the first character, ends a block comment; a line comment
  directly after a block comment is read as program text (`C08_*`).
* C10: a newline swallowed by the early end of a block comment is not counted
  (`C10_position_wrong_after_block_comment`).
* C11: of two function calls side by side the first is dropped (`C11_calls_dropped`); the grammar
  in the docstrings is ambiguous about signs (`C11_published_ambiguous`).
* C13: anything after a complete expression is ignored (`C13_leftover_ignored`).
* C14: a sign applies to the whole product after it: `a/-b*c` is `a/(-(b*c))` (`C14_false`).
* C16: a token that starts no statement makes the preamble loop for ever, in particular a file
  without model block (`C16_dead_token_hangs`, `C16_no_model_block_hangs`).
* C19: substituting into an expression that is a single name does nothing
  (`C19_bare_name_not_substituted`).
* C20: names that are only assigned, never declared, are accepted (`C20_undeclared_accepted`).
* C22: a model file without a shocks block is rejected (`C22_no_shocks_block_rejected`).
* C23: a `histval` block without `endval` block raises `UnboundLocalError`; with one, its values
  are replaced by those of `endval` (`C23_histval_needs_endval`, `C23_histval_is_endval`).
* C25: reassigning a name that a parameter was computed from changes the parameter too; computing
  a parameter from a name that is not declared raises `KeyError` (`C25_last_assignment_false`).
- **C24** (`core/generic.py:395-424`, `parsing/factory.py:400-423`): a shock stores one `other`, one
  `corr`, one `cov`; a second pair with the same first shock replaces the first one, and a
  covariance stored for one partner is then attributed to the other. A shock named first in a pair
  without a variance statement has no variance at all: diagonal 0, or `TypeError` with `corr`.
- **C29** (`core/variables.py:543-552`): the row index `period + 1` is not checked; numpy wraps
  negative indices, so lags of 2, 3, 4 become lead, current, lag. A single period out of range is
  swallowed by the `except IndexError`.
- **C30** (`core/variables.py:580-585`): `back_idx` also contains the variables with lag and lead but
  without current occurrence, which `mixed_idx` lists again.
- **C32** (`core/variables.py:592-595`): `count_nonzero` is applied to column numbers, so that column 0
  is not counted (and `nan` is).
- C33: `x(0)` and `x(+0)` get the suffix of a lag, so the residual reads the lagged value; a
  `varexo_det` variable is not among the arguments and raises a bare `KeyError` when the residual is
  called, while the steady residual reads it (and any undeclared name) as zero, so C35 fails there.
- C36: arguments are named by pasting `m1`/`p1` behind the variable. A clash among declared
  endogenous variables and shocks is caught by `inspect.Signature` (`ValueError`); a `varexo_det` or
  undeclared name `xm1` is silently read as the lag of `x`.
- C29 (residuals): with periods -2, -1, 0, 1 present the table has three entries and `x(-2)` is read
  as `x(-1)`.
- C41: a generator passed as the equations is consumed by the first of two passes; the texts are
  lost, and later texts stand beside the wrong trees.
- C38 (`core/model.py:302-313`, `core/generic.py:427-438`): `solution` is kept for good once made;
  `update` clears `is_altered` before the work that may raise; `add_params` and `add_exprs` set the
  flag only after the whole loop. In each case a stale quantity is read without exception. (The
  Kalman matrices and the covariance of the state space use the kept solution, too.)
- C39, C71 (`core/generic.py:486-498`): `copy` does not pass `local_params`; after it every `#`
  variable of a model file is an unknown name. Assumed, not modelled: numpy's concatenation of arrays
  of variables in `add_endog` and `add_stoch` succeeds although `VarArray.__array_finalize__`
  inspects elements.
- C40: `add_endog` accepts a name that is there already; looking it up raises `ValueError`.
- C42 (`regimes.py:67-68`): the length counts the equations of the dictionary, not the regimes.
- C70 (`core/model.py:37`, `core/variables.py:786`): the default `params = {}` is one dictionary for
  all models, and a dictionary given is kept by reference.
- C72 (`core/model.py:152-205`, `utils/numpy.py:267`): `solve` never calls `verify`, and the cut of the
  decomposition is the first eigenvalue with `eig > 1`, not `abs(eig) > 1`; with none the cut is -1,
  the last row. Indeterminate models are solved, determinate ones with a negative explosive
  eigenvalue can be refused.
- C43, C46: with no eigenvalue above one and the last two eigenvalues complex conjugates, the cut before the last
  row runs through the pair. For `y(+1) - y + y(-1)/2 = e`, which has no real solution, `solve` returns numbers.
- C145, C146: eigenvalues of modulus one are neither inside the unit circle nor counted as explosive. A model with
  the eigenvalues -2 and 1 (in this order) passes the check, its responses explode and the variance reported is
  negative.
- C73 (`core/solve/statespace.py:168-199`): an empty block of purely backward variables is replaced by one
  column of zeros, which fits only a model with exactly one mixed variable; a model needs states and
  forward-looking variables. (Autoregressions cannot be solved.) Not modelled: that numpy repeats an
  axis of length one in sums; the `A + B` of this code are of equal shape.
- C68: `np.outer` returns a two-dimensional array where `np.matmul` returns a vector.
- C53 (`core/solve/second_order.py:31-32`, `simul.py:229-230`): the solution stores half of the second
  derivatives, and the simulation halves them once more; the constant, halved when it is computed
  (`second_order.py`), is halved again too. The summary printed for users shows the stored arrays.
- C55 (`impulse.py:76-88`): the shock is put into row 0, whose effect is in row 1; row 0 of every response
  is zero. A shock given is multiplied by the upper Cholesky factor, so `size` counts standard
  deviations of an orthogonalised shock and other shocks move along.
- C74 (`utils/numpy.py`, `simul.py:252`): with one state or one shock a term of the sum is a column, the
  sum becomes a matrix and does not fit into the row.
- C75 (`simul.py:174-205`): squeezing turns one row of responses into a vector whose transpose is itself,
  and the product with the shocks has the wrong shape.
- Not modelled in `Simul`: that numpy repeats an initial value of length one.
- C57 (`core/solve/binding.py:875`): the loop stops one short, so that a regime beginning in the last period
  is not located.
- C58, C60 (`core/solve/binding.py:580`): the last bound period is the one before the last regime located,
  also when that regime is the alternative one; then the linear path is used for periods the guess puts in the
  alternative regime, and the guess is accepted with a warning about the horizon only.
- C59: the statement was first written for the realised linear path; the loop looks at expected paths.
- C61 (`core/solve/binding.py:512-525`): both branches compute the same update.
- C76 (`core/solve/binding.py:289-293`): columns of `gy` belong to the states in decision-rule order, but are
  assigned to the states in order of declaration.
- C77 (`core/solve/first_order.py:99`, `core/solve/binding.py:291`): with one state `gy` is squeezed to a
  vector, which cannot be assigned to a column.
- C78 (`plotting/base.py:80,237`): the columns are the divisor not above the root rounded up, so that there are
  often more rows than columns.
- C79 (`plotting/base.py:117`): a one-by-one layout gives a single `Axes`, which has no `shape`; in a layout with
  one row or column series beyond the number of axes are left out.
- C80 (`plotting/base.py:98`): the documented layout `'row'` is not recognised.
- C64 (`stats/moments.py:205-254`): the documentation says that entry `i` is the `i`-period autocovariance; the
  first entry is that of one period.
- C66 (`stats/filters.py:62-63`): `data[:, obs.get_loc(labels)]` applies the inverse of the permutation needed; two
  exchanged columns are right, three rotated ones are not.
- C81 (`core/solve/first_order.py:99`, `stats/moments.py:159`): with one variable the solution is squeezed to a
  number, which cannot be indexed.
- C82 (`stats/var.py:40-54`): the branch for one shock does not look at the argument `stoch`.
- C89 (`core/solve/second_order.py:434`, `stats/moments.py:13-68`): the second-order coefficients are stored halved
  and the mean halves them again.
- C90 (`core/solve/statespace.py:39-108`): the object is marked as verified before the error is raised, so a second
  request for moments of an indeterminate model returns arrays.
- C92 (`simul.py:108,124`): lagged products are averaged over the pairs and the variance over the periods, so that
  autocorrelations may exceed one; `p > periods` should be `p >= periods`.
- C95 (`io/summary.py:630-679`): the threshold of a first-order table selects rows and is applied to columns, so
  that it raises an `IndexError` unless there are as many variables as rows.
- C96 (`io/summary.py:535-537`): in second-order tables the rows of products of a state and a shock are not reordered
  with their names.
- C97 (`io/summary.py:483`): second-order tables leave out rows whose coefficients are all negative.
- C98 (`core/steady.py:185-198`): of the methods numbered 0 to 11 only number 8 can be used.
- C99 (`core/steady.py:54-56`): the last point of the minimiser is reported as the steady state even if the
  minimiser says that it failed.
- C100 (`core/generic.py:194`): a steady state computed with a chosen method is forgotten, because every
  access makes another object.
- C101 (`core/solve/second_order.py:22-25`): solving at second order stores the first-order solution before it is known
  whether the second order can be solved; a failed call therefore replaces the solution.
- C102 (`stats/moments.py:34`, `139`, `214`): after a constrained solution, statistics solve the model again and replace it.
- C105 (`core/model.py:339`): the first-order solution cannot be read after a constrained solution.
- C106 (`core/model.py:180`, `205`): `init` is not removed from the keyword arguments, every constrained solution with
  initial values raises `TypeError`.
- C107 (`core/solve/statespace.py:90-108`): transition arrays made from a solution of an old definition are cached, and
  used in moments even after the model was solved again.
- C108 (`core/solve/binding.py:815-827`): a constrained solution uses a first-order solution of an old definition.
- Constraints: a condition in parameters alone cannot be used: joining its number with the column of the other condition fails (`binding.py:128`), C113.
- Alternative regimes are linearised at their own steady state but their constant is taken at the reference steady state (`binding.py:297-300`), so the linear equations are not an approximation about either point, C114.
- `exog=['e']` with one-dimensional shocks is refused with the message that one variable does not match one column (`binding.py:809-813`), C116.
- `OccBinSolution` says it takes a `Constraint`, but hands it to `Constraint(...)`, which refuses it (`binding.py:47,158`), C117.
- `from_path` documents `str | Path`, but calls `filepath.split` (`model.py:96`): every `Path` raises `AttributeError`, C123.
- Paths of examples are relative to the working directory (`examples/__init__.py:4-11`), so examples are found only from pynare's parent directory, C123.
- Local variables of a file are evaluated once and kept as numbers; changing a parameter leaves them as they are, C120.
- The semantic check lets local definitions use endogenous variables, the factory cannot evaluate them (`TypeError`), C121.
- A name assigned but not declared passes the semantic check; equations read it as zero at rest and raise `KeyError` otherwise, C122.
- `_simple_kalman_transition_selection` sums only log determinants; its result does not depend on the data, C125.
- `KalmanFilter.filter` reads `self.meas_idx`, which is set nowhere: always `AttributeError`, C126.
- `KalmanFilter.loglike` works for one name of a model only, never updates the covariance and returns `None`, C126.
- `ObservedModel` has no `model_scope` of its own, so local variables are missing from the scope of its equations, C127.
- `ObservedModel` copies boundary values through float arrays, so `None` becomes nan, C127.
- `upper_triangular_to_symmetric` uses `np.bool`, which numpy 1.24 to 1.26 do not have; there `inv_sym_pd` always raises `AttributeError`. Not modelled.
- The table of autocorrelations has headings that are one lag too low and is titled autocovariance, C129.
- Summaries of models with no or only zero parameters, shocks or eigenvalues raise `ValueError` or `OverflowError`; so does `str` of a calibration, C130.
- `params='beta'` is iterated by letters, C131; iterators given as `params` or `only` are used up, C131 and C132.
- `model.stats.autocorr(5)` raises `TypeError` for two values of `md`, C133.
- Widths of columns shrink with the logarithm of the largest number, also below one, C134.
- Constrained solutions depend on the horizon and on trailing zeros of the shocks if a constraint binds near the end of the horizon, C136 and C137; `OccBinSolution.solve` appends such zeros to its own shocks, C140.
- In `_simulate_hypothesized_paths_two_constraints` the period `last_bound` takes the second alternative regime unless the guess says otherwise, in the version for one constraint the alternative regime; so one constraint and two constraints of which one never binds may differ, C138, as may the two orders of constraints, C139.
- `StateSpace.verify` is not called when a model is solved, simulated or its responses computed, and `partitioned_qz` compares eigenvalues, not their moduli, with one; so models without a stable solution are solved without notice, C142.
- In C142 to C146 the eigenvalues of the decomposition are a parameter: those that are inside the unit circle come first, the comparisons of the code are right about them, and they are the eigenvalues of the diagonal blocks (`QZ.Eigen`).  These are the properties of `scipy.linalg.ordqz` with `sort='iuc'` that are used; floating point is not modelled.
- Second-order simulations feed the whole path, not its first-order part, into the products (`simul.py:243-252`); without that pruning they explode from far initial values or after large shocks even in models that pass all checks, C147.
- `partitioned_qz` cuts where the first eigenvalue is greater than one (`utils/numpy.py:269-271`), but `verify` counts those of modulus above one (`statespace.py:58-64`).  With an eigenvalue below -1 the rank condition is checked for the wrong block: explosive models can be accepted, and determinate ones refused, C148.
- `simulate` and `impulse_response` multiply the draws by the Cholesky factor of the covariances (`simul.py:342`), so with correlated shocks responses depend on the order in which the shocks are declared, C151.
- C159 and C160 are one chain from characters to accuracy. `Verif/Examples/WholeRun.lean` runs it on a text with three
  variables, two shocks and products of variables, so the hypotheses can all be met at once.
- C161 compares two texts. `Verif/Examples/WholeOrderRun.lean` runs both orders of one file, with different libraries, to their
  solutions.
- C162 speaks about averages over finitely many values of the shocks (`ShockDist`), which have all covariances a
  distribution can have; integrals are not needed.
- C163 closes the gap that C160 names, the correction for risk.
- C47 and C87 now have converses: the Sylvester solver answers exactly if the homogeneous equation has only the zero solution, and the second-order solver exactly if the numbers of variables and shocks are supported.
- C165: a correlation whose first shock has no variance makes `solve` raise, hence the guard `CorrelatedHaveVariance`.
- C186: `filter_model` accepts a frame with the labels `y, y` for the observed variables `y, c`; the second column is lost.
- C187: `var_decomp` adds `1e-12` to variances of any size, so for small shocks the decomposition depends on their unit.
- C190: `statespace.py:152` calls `ModelIdentificationError(_r, indexes.n_static)`, but the first parameter is `bk_type`. The rank is taken for the type of condition, the number of static variables for the rank, and the number of static variables is shown as `None`.
- C191: `linewidth` is an argument of the figure, so that it cannot be used for lines; a layout has to be valid even if rows and columns are given; a single series, which `plot` refuses (C79), can be drawn with `squeeze=False`.
- C192: the tokens of reserved words are made once (`parsing/base.py:110-130`, `parsing/dynare.py:127-266`) and `lexer.py:151` writes the position into them, so that all occurrences of a word have the position of the last one. In C10 positions of reserved words are those at the time the token is made.
- Moments are statements about any process in a module with a symmetric bilinear form as covariance; that random
  variables with finite variance are such a module is not formalised.
- C87 (`core/solve/second_order.py`): numpy drops dimensions of length one, and five kinds of models are
  always refused by the second-order solver: one variable (`IndexError`); no forward-looking variable
  (`-0:` is the whole array); one state and one forward-looking variable; several states and one shock; one
  state, several shocks and as many forward-looking variables as shocks (a dot product is taken where an
  outer product is meant) (`C87_false`, `C87_refused_partial`).
