{"id": "C01", "title": "Calibration solves in dependency order", "statement": "Whenever a set of parameter definitions is accepted, the order in which the parameters are evaluated lists every parameter exactly once and no parameter is evaluated before one its definition mentions.", "quantifier": "every finite set of parameter definitions (any names, any expressions, any insertion order)", "why_tests_cant": "the number of dependency graphs is unbounded; a test only shows a few graphs ordered correctly", "anchors": ["pynare/core/variables.py:order_precedence", "pynare/core/variables.py:ParamLocator"]}
{"id": "C02", "title": "Calibration succeeds exactly on acyclic definitions", "statement": "If every name mentioned on a right-hand side is itself defined, computing the calibration order succeeds if and only if the definitions contain no dependency cycle; with a cycle it raises CalibrationError, and with an undefined name it raises KeyError.", "quantifier": "every finite closed set of parameter definitions", "why_tests_cant": "the pass budget n(n+1)/2 could be too small on some graph of some size; no finite set of tests excludes that", "anchors": ["pynare/core/variables.py:order_precedence"]}
{"id": "C03", "title": "Calibrated values are the solution of the definitions", "statement": "After a successful calibration, evaluating each parameter's definition in the resulting calibration gives exactly the stored value of that parameter, and any other assignment with this property is the same assignment.", "quantifier": "every finite set of definitions and every arithmetic in which + - * / ^ and the functions are deterministic", "why_tests_cant": "needs an argument about all graphs and all expressions, and about all arithmetic (floats included)", "anchors": ["pynare/core/variables.py:solve_calibration", "pynare/core/variables.py:ModelCalibration", "pynare/parsing/base.py:_BaseEvaluator"]}
{"id": "C04", "title": "Calibration is independent of declaration order", "statement": "Two definition sets with the same name-to-definition mapping but different insertion order either both fail or give every parameter the same value.", "quantifier": "every finite set of definitions and every permutation of it", "why_tests_cant": "n! permutations of unboundedly large sets", "anchors": ["pynare/core/variables.py:order_precedence", "pynare/core/variables.py:solve_calibration"]}
{"id": "C05", "title": "A failed parameter update leaves the calibration unchanged", "statement": "Assigning a definition to a parameter either makes the calibration consistent with the updated definitions or, when it raises, leaves the calibration object as it was; subsequently every stored value satisfies its stored definition.", "quantifier": "every history of assignments and deletions on a calibration object", "why_tests_cant": "atomicity and consistency must hold after every history of operations", "anchors": ["pynare/core/variables.py:ModelCalibration.__setitem__", "pynare/core/variables.py:ModelCalibration.__delitem__"]}
{"id": "C06", "title": "Tokenising always terminates", "statement": "For every model text, tokenising returns a token list or raises an error after finitely many steps.", "quantifier": "every string and every sequence of lexer steps on it", "why_tests_cant": "non-termination cannot be observed by a test; termination must hold on every string", "anchors": ["pynare/parsing/lexer.py:BaseLexer.tokenize", "pynare/parsing/lexer.py:DynareLexer.skip_singleline_comment", "pynare/parsing/lexer.py:DynareLexer.skip_multiline_comment"]}
{"id": "C07", "title": "Line comments are invisible", "statement": "Inserting a line comment (percent sign or double slash, any content, ended by a newline) between two tokens of a model text does not change the sequence of token kinds and values.", "quantifier": "every rest of text after the comment and every comment content", "why_tests_cant": "all comment contents and all continuations", "anchors": ["pynare/parsing/lexer.py:DynareLexer.is_singleline_comment", "pynare/parsing/lexer.py:DynareLexer.skip_singleline_comment", "pynare/parsing/lexer.py:BaseLexer.next_token"]}
{"id": "C08", "title": "Block comments are invisible", "statement": "Inserting a block comment /* ... */ between two tokens does not change the sequence of token kinds and values.", "quantifier": "every comment content not containing */ and every rest of text", "why_tests_cant": "all comment contents", "anchors": ["pynare/parsing/lexer.py:DynareLexer.skip_multiline_comment", "pynare/parsing/lexer.py:BaseLexer.next_token"]}
{"id": "C09", "title": "Lexing inverts printing", "statement": "Printing a list of tokens with separating blanks and lexing the result gives back the same list of token kinds and values, followed by end-of-file.", "quantifier": "every list of tokens (names, reserved words, numerals, operators and punctuation)", "why_tests_cant": "unboundedly many token sequences, and interactions between neighbouring tokens", "anchors": ["pynare/parsing/lexer.py:BaseLexer.next_token", "pynare/parsing/lexer.py:BaseLexer._id", "pynare/parsing/lexer.py:BaseLexer._number"]}
{"id": "C10", "title": "Source positions track the text", "statement": "While a text is consumed, the reported line is one plus the number of newlines consumed and the reported column is the distance from the last newline.", "quantifier": "every text and every number of consumed characters", "why_tests_cant": "an invariant over all texts and all positions", "anchors": ["pynare/parsing/lexer.py:BaseLexer.advance"]}
{"id": "C11", "title": "The expression parser implements its grammar", "statement": "Whenever the parser of numeric expressions returns a tree, the tokens it consumed derive that tree in the published grammar; and whenever a token sequence derives a tree and is followed by a token that cannot continue it, the parser returns that tree.", "quantifier": "every token sequence", "why_tests_cant": "recursive grammar: all nestings", "anchors": ["pynare/parsing/parser.py:BaseParser.atom", "pynare/parsing/parser.py:BaseParser.call", "pynare/parsing/parser.py:BaseParser.exponent", "pynare/parsing/parser.py:BaseParser.term", "pynare/parsing/parser.py:BaseParser.expr"]}
{"id": "C12", "title": "Printing then parsing is the identity", "statement": "For every expression tree, printing it with the minimal parentheses required by the precedence of + - * / ^ and parsing the result gives back the tree.", "quantifier": "every expression tree", "why_tests_cant": "all trees of all depths", "anchors": ["pynare/parsing/parser.py:BaseParser.expr", "pynare/parsing/ast.py:BinaryOp"]}
{"id": "C13", "title": "The whole expression is parsed", "statement": "If an expression string is accepted, every token of it contributed to the tree; leftover tokens are rejected.", "quantifier": "every token sequence", "why_tests_cant": "all token sequences with a valid prefix", "anchors": ["pynare/parsing/parser.py:BaseParser.parse", "pynare/parsing/api.py:parse_string", "pynare/parsing/api.py:evaluate"]}
{"id": "C14", "title": "Unary minus binds tighter than multiplication", "statement": "A sign in front of an operand applies to that operand only: a/-b*c means (a/(-b))*c.", "quantifier": "every operand and every surrounding expression", "why_tests_cant": "all expression contexts in which a sign may occur", "anchors": ["pynare/parsing/parser.py:BaseParser.atom", "pynare/parsing/parser.py:DynareParser.matom"]}
{"id": "C15", "title": "Both exponent spellings mean the same", "statement": "An expression written with ^ under the standard setting and the same expression written with ** under the python setting have the same tokens and therefore the same value.", "quantifier": "every expression text", "why_tests_cant": "all texts", "anchors": ["pynare/parsing/lexer.py:BaseLexer.is_exponent", "pynare/parsing/lexer.py:BaseLexer._exponent"]}
{"id": "C16", "title": "Parsing the variable preamble terminates", "statement": "For every token sequence, parsing the declarations at the head of a model file returns or raises.", "quantifier": "every token sequence", "why_tests_cant": "non-termination is not observable by tests", "anchors": ["pynare/parsing/parser.py:DynareParser.variable_preamble"]}
{"id": "C17", "title": "Evaluation depends only on the names that occur", "statement": "Two scopes that agree on the names occurring in an expression give the same value or the same error.", "quantifier": "every expression, every pair of scopes, every arithmetic", "why_tests_cant": "all expressions and scopes", "anchors": ["pynare/parsing/base.py:_BaseEvaluator", "pynare/parsing/api.py:evaluate"]}
{"id": "C18", "title": "Evaluation fails exactly for the documented reasons", "statement": "Evaluating an expression fails if and only if it mentions a name the scope lacks, a name with a period, an unsupported function, or an arithmetic operation that itself fails.", "quantifier": "every expression and scope", "why_tests_cant": "all expressions and scopes", "anchors": ["pynare/parsing/base.py:_BaseEvaluator"]}
{"id": "C19", "title": "Substituting parameters preserves meaning", "statement": "Replacing variables of an expression by the numbers of a scope and then evaluating in a second scope gives what evaluating the original in the second scope overridden by the first gives; the replaced names no longer matter.", "quantifier": "every expression in which the substituter is defined, every pair of scopes", "why_tests_cant": "all expressions and scopes", "anchors": ["pynare/parsing/base.py:_ASTSubstitution", "pynare/parsing/base.py:ASTSubstitution"]}
{"id": "C20", "title": "Accepted models use only declared names", "statement": "If the semantic check accepts a model file, every name used in the model equations, boundary values and shocks was declared, with the right kind, or defined as a local variable before its use.", "quantifier": "every model file tree", "why_tests_cant": "all model files", "anchors": ["pynare/parsing/semantics.py:DynareSemanticAnalyzer"]}
{"id": "C21", "title": "Accepted models declare each name once", "statement": "If the semantic check accepts a model file, no name is declared twice, and no local model variable reuses a declared name.", "quantifier": "every model file tree", "why_tests_cant": "all model files", "anchors": ["pynare/parsing/semantics.py:DynareSemanticAnalyzer.visit_VarDeclaration", "pynare/parsing/semantics.py:DynareSemanticAnalyzer.visit_LocalModelDeclaration"]}
{"id": "C22", "title": "A model file may omit the shocks block", "statement": "A model file without a shocks block that is otherwise well formed is accepted, and its shocks get the default variance.", "quantifier": "every model file tree without shocks block", "why_tests_cant": "all such model files", "anchors": ["pynare/parsing/semantics.py:DynareSemanticAnalyzer.visit_ModelActions", "pynare/core/variables.py:_create_stoch_vars"]}
{"id": "C23", "title": "Each boundary block sets its own values", "statement": "The values in initval, endval and histval blocks end up respectively as initial, terminal and historical values.", "quantifier": "every combination of boundary blocks and values", "why_tests_cant": "all combinations of present/absent blocks and all values", "anchors": ["pynare/parsing/factory.py:DynareModelFactory.visit_ModelBoundaryValues"]}
{"id": "C24", "title": "Every declared correlation reaches the covariance matrix", "statement": "Every variance, standard error, covariance or correlation statement of a shocks block is reflected in the model's shock covariance matrix: the diagonal holds variance or squared standard error, and each declared pair holds its covariance or the correlation times the product of standard deviations.", "quantifier": "every shocks block", "why_tests_cant": "all shocks blocks and orders of statements", "anchors": ["pynare/parsing/factory.py:DynareModelFactory.visit_ShocksBlock", "pynare/core/variables.py:_create_stoch_vars", "pynare/core/generic.py:DynamicModel._define_sigma"]}
{"id": "C25", "title": "Parameters take the value of their last assignment", "statement": "The calibrated value of each parameter equals the value obtained by executing the assignments of the file from top to bottom.", "quantifier": "every sequence of parameter assignments", "why_tests_cant": "all assignment sequences", "anchors": ["pynare/parsing/factory.py:DynareModelFactory.visit_VarAssignment", "pynare/core/variables.py:solve_calibration"]}
{"id": "C26", "title": "Equations are recorded as left minus right", "statement": "Each model equation l = r contributes, in file order, exactly one residual whose value is l - r, and an equation without = contributes its left side.", "quantifier": "every model block, every scope", "why_tests_cant": "all model blocks", "anchors": ["pynare/parsing/factory.py:DynareModelFactory.visit_ModelExpression", "pynare/parsing/parser.py:DynareParser.model_expression"]}
{"id": "C27", "title": "Lead/lag incidence is exact", "statement": "The recorded incidence of a variable at a period is true if and only if the variable occurs at that period in some model equation.", "quantifier": "every model block", "why_tests_cant": "all model blocks", "anchors": ["pynare/parsing/factory.py:DynareModelFactory.visit_Var", "pynare/parsing/factory.py:DynareModelFactory.visit_PeriodVar", "pynare/core/variables.py:read_lead_lags"]}
{"id": "C28", "title": "Jacobian columns are numbered without gaps or clashes", "statement": "The lead/lag table numbers exactly the occurring (variable, period) pairs, consecutively from 0, ordered by period then by declaration, no number twice.", "quantifier": "every incidence pattern with periods in -1, 0, 1", "why_tests_cant": "2^(3n) incidence patterns for each n", "anchors": ["pynare/core/variables.py:VariableIndexManager.llx"]}
{"id": "C29", "title": "Only periods -1, 0 and +1 are representable", "statement": "A model in which a variable occurs with a lead or lag of more than one period is rejected rather than silently reinterpreted.", "quantifier": "every incidence pattern", "why_tests_cant": "all offsets and patterns", "anchors": ["pynare/core/variables.py:VariableIndexManager.llx"]}
{"id": "C30", "title": "The decision-rule order is a permutation", "statement": "The decision-rule order lists every endogenous variable exactly once, and the inverse table maps it back to declaration order.", "quantifier": "every incidence pattern", "why_tests_cant": "2^(3n) patterns", "anchors": ["pynare/core/variables.py:VariableIndexManager.dr_order", "pynare/core/variables.py:VariableIndexManager.dc_order"]}
{"id": "C31", "title": "Variable types partition the variables", "statement": "Every endogenous variable is exactly one of static, purely backward, mixed, purely forward; the decision-rule order lists these groups in this order; the reported group sizes are the true cardinalities and add up to the number of variables.", "quantifier": "every incidence pattern", "why_tests_cant": "2^(3n) patterns", "anchors": ["pynare/core/variables.py:VariableTyper", "pynare/core/variables.py:VariableIndexManager"]}
{"id": "C32", "title": "The reported number of static variables is exact", "statement": "The number of static variables used to partition the Jacobian equals the number of variables occurring neither with a lead nor with a lag.", "quantifier": "every incidence pattern", "why_tests_cant": "2^(3n) patterns", "anchors": ["pynare/core/variables.py:VariableIndexManager.n_static"]}
{"id": "C33", "title": "The dynamic residual function means the equation", "statement": "Calling the dynamic residual function of an equation on a vector of lagged, current and lead values and shocks returns the value of left minus right with each occurrence x(-1), x, x(+1) read from its own position of the vector.", "quantifier": "every equation, incidence pattern and argument vector", "why_tests_cant": "all equations and vectors", "anchors": ["pynare/core/expressions.py:dynamic_func", "pynare/core/expressions.py:DynamicFunc", "pynare/core/expressions.py:DynamicRepr"]}
{"id": "C34", "title": "The steady residual function means the equation at rest", "statement": "Calling the steady-state residual function returns the value of left minus right with every variable, whatever its period, read from one vector of steady values and every shock read as zero.", "quantifier": "every equation and vector", "why_tests_cant": "all equations and vectors", "anchors": ["pynare/core/expressions.py:steady_func", "pynare/core/expressions.py:SteadyFunc"]}
{"id": "C35", "title": "Dynamic and steady residuals agree at rest", "statement": "Evaluating the dynamic residual at the linearisation point built from a steady vector gives the steady residual at that vector.", "quantifier": "every equation, incidence pattern and steady vector", "why_tests_cant": "all models", "anchors": ["pynare/core/linearizing.py:Linearization.ss", "pynare/core/expressions.py:dynamic_func", "pynare/core/expressions.py:steady_func"]}
{"id": "C36", "title": "Distinct variables stay distinct in residual functions", "statement": "A lead or lag of one variable is never confused with another variable.", "quantifier": "every set of variable names", "why_tests_cant": "all names", "anchors": ["pynare/core/expressions.py:dynamic_func"]}
{"id": "C37", "title": "The covariance matrix is symmetric", "statement": "The shock covariance matrix is symmetric whatever the declared shocks are, and diagonal entries of shocks without self-reference are the declared variances.", "quantifier": "every list of shocks", "why_tests_cant": "all shock lists", "anchors": ["pynare/core/generic.py:DynamicModel._define_sigma"]}
{"id": "C38", "title": "Derived quantities are never stale", "statement": "After any sequence of edits through the model's own add methods, reading a derived quantity (incidence, covariance matrix, state space, solution) returns the quantity of the current definition.", "quantifier": "every history of edits and reads", "why_tests_cant": "all histories", "anchors": ["pynare/core/generic.py:DynamicModel", "pynare/core/model.py:Model.solution"]}
{"id": "C39", "title": "Copying a model preserves it", "statement": "A copy of a model has the same variables, parameters, expressions and local parameters as the original.", "quantifier": "every model", "why_tests_cant": "all models", "anchors": ["pynare/core/generic.py:DynamicModel.copy"]}
{"id": "C40", "title": "Variable lookup is by name", "statement": "Looking up a list of variable names returns, in the order asked, the declaration position of each name, and fails if and only if some name is missing.", "quantifier": "every variable list and every query", "why_tests_cant": "all lists and queries", "anchors": ["pynare/core/variables.py:VarArray.get_loc"]}
{"id": "C41", "title": "Expression text and function stay aligned", "statement": "After any sequence of insertions, replacements and deletions the i-th residual function is the one of the i-th equation text.", "quantifier": "every history of edits of the expression container", "why_tests_cant": "all histories", "anchors": ["pynare/core/expressions.py:ModelExprs"]}
{"id": "C42", "title": "A regime-switching model reports its number of regimes", "statement": "The length of a regime-switching model is the number of its regimes.", "quantifier": "every construction argument", "why_tests_cant": "all arguments", "anchors": ["pynare/regimes.py:RegimeSwitchingModel.__len__"]}
{"id": "C43", "title": "First-order dynamic block solves the matrix equation", "statement": "With exact linear algebra and an ordered QZ decomposition whose stable block matches the number of states, the computed responses of backward and forward variables satisfy the linearised dynamic system for every state.", "quantifier": "every state-space pencil over any field with invertible Z11, Z22 and T11 blocks", "why_tests_cant": "all matrices of all sizes", "anchors": ["pynare/core/solve/first_order.py:solve_nonstatic_endo", "pynare/core/solve/statespace.py"]}
{"id": "C44", "title": "Static responses satisfy the static equations", "statement": "With exact linear algebra the computed response of static variables makes the static block of the linearised equations hold for every state.", "quantifier": "all rotated Jacobians with invertible static block", "why_tests_cant": "all matrices of all sizes", "anchors": ["pynare/core/solve/first_order.py:solve_static_endo"]}
{"id": "C45", "title": "Shock responses satisfy the equations on impact", "statement": "With exact linear algebra the computed shock response makes all linearised equations hold on impact for every shock.", "quantifier": "all Jacobians for which the impact matrix is invertible", "why_tests_cant": "all matrices of all sizes", "anchors": ["pynare/core/solve/first_order.py:solve_exo"]}
{"id": "C46", "title": "The first-order policy solves the linearised model", "statement": "Along every path generated by the first-order policy functions, for every shock sequence with mean-zero future shocks, the linearised equations hold in every period.", "quantifier": "every model dimension split, every shock sequence, every horizon", "why_tests_cant": "all models, all shock sequences", "anchors": ["pynare/core/solve/first_order.py:solve_first_order", "pynare/simul.py:LinearSimulator._simulate_first_order"]}
{"id": "C47", "title": "Sylvester solver is correct", "statement": "Given exact decompositions and linear solves, the solver for A X B' + C X D' = E returns an X that satisfies the equation, and refuses arrays whose shapes do not fit.", "quantifier": "every dimension, every quasi-triangular Schur form with 1x1 and 2x2 blocks", "why_tests_cant": "all sizes and block patterns", "anchors": ["pynare/utils/numpy.py:generalized_sylvester"]}
{"id": "C48", "title": "Shingling stacks overlapping blocks", "statement": "Merging two arrays with an overlap of k rows keeps all rows of the first, drops the first k rows of the second, and equals both sources on the overlap when these agree.", "quantifier": "all arrays and all overlaps", "why_tests_cant": "all sizes", "anchors": ["pynare/utils/numpy.py:array_shingle"]}
{"id": "C49", "title": "First-order simulation follows the policy function", "statement": "Row 0 of a first-order simulation is the initial value, and every later row is the steady state plus the policy response to the deviation of the previous row's states and the previous row's shock, in declaration order.", "quantifier": "every solution, shock array, initial value and horizon", "why_tests_cant": "all horizons and values", "anchors": ["pynare/simul.py:LinearSimulator._simulate_first_order"]}
{"id": "C50", "title": "First-order simulation is linear", "statement": "Deviations from steady state superpose: the path for the sum (or multiple) of two shock arrays and initial deviations is the sum (or multiple) of the paths.", "quantifier": "every solution and all pairs of shock arrays", "why_tests_cant": "all values", "anchors": ["pynare/simul.py:LinearSimulator._simulate_first_order"]}
{"id": "C51", "title": "Without shocks the steady state is a rest point", "statement": "Simulating at first order from the steady state with zero shocks returns the steady state in every period.", "quantifier": "every solution and horizon", "why_tests_cant": "all horizons", "anchors": ["pynare/simul.py:LinearSimulator._simulate_first_order"]}
{"id": "C52", "title": "Simulation is causal", "statement": "Two shock arrays that agree on the first t rows give the same first t+1 simulated rows; in particular the last shock row has no effect on a simulation.", "quantifier": "every solution, pairs of shock arrays, t", "why_tests_cant": "all values", "anchors": ["pynare/simul.py:LinearSimulator._simulate_first_order", "pynare/simul.py:LinearSimulator._simulate_second_order"]}
{"id": "C53", "title": "Second-order simulation uses the second-order policy", "statement": "Each step of a second-order simulation adds to the first-order step the quadratic terms of the computed solution and its constant once, i.e. the simulated step equals the second-order Taylor policy.", "quantifier": "every solution, state and shock", "why_tests_cant": "all values", "anchors": ["pynare/simul.py:LinearSimulator._simulate_second_order", "pynare/core/solve/second_order.py"]}
{"id": "C54", "title": "Random shocks have the declared covariance", "statement": "Multiplying white noise rows by the Cholesky factor used for simulation gives rows whose covariance matrix is the model's shock covariance matrix.", "quantifier": "every covariance matrix with exact Cholesky factor and every finite white-noise distribution", "why_tests_cant": "a statistical test only approximates; all matrices", "anchors": ["pynare/simul.py:_generate_simul_shocks"]}
{"id": "C55", "title": "Impulse responses start at the shock and scale", "statement": "The response to a shock is linear in the shock size, is the impact response in the first period and evolves by the policy function afterwards.", "quantifier": "every solution, size and horizon", "why_tests_cant": "all horizons and sizes", "anchors": ["pynare/impulse.py:impulse_response"]}
{"id": "C56", "title": "Dropping burn-in keeps the tail", "statement": "Dropping d periods returns the paths from period d on, for every 0 <= d <= T, and raises otherwise.", "quantifier": "all arrays and d", "why_tests_cant": "all sizes", "anchors": ["pynare/simul.py:_drop_simulated_paths"]}
{"id": "C57", "title": "Regime changes are located at the transitions", "statement": "The regime locator reports, for every 0/1 regime sequence, exactly the start of each regime interval.", "quantifier": "every regime sequence of every length", "why_tests_cant": "2^T sequences", "anchors": ["pynare/core/solve/binding.py:_locate_regime_changes"]}
{"id": "C58", "title": "An accepted OccBin path is self-consistent", "statement": "When the guess-and-verify loop stops without exhausting its iterations, in every period the regime used to compute the path agrees with the regime the path itself calls for.", "quantifier": "every model, shock path and iteration count", "why_tests_cant": "all executions of the loop", "anchors": ["pynare/core/solve/binding.py"]}
{"id": "C59", "title": "OccBin with a slack constraint is the linear solution", "statement": "If the constraint does not bind along the linear path expected at any date of the shocks (over the simulated horizon and one period more), the piecewise solution is the linear solution.", "quantifier": "every model pair and shock path", "why_tests_cant": "all shock paths", "anchors": ["pynare/core/solve/binding.py"]}
{"id": "C60", "title": "OccBin paths satisfy the equations of their regime", "statement": "In every period, the decision rule computed for a sequence of regimes makes the linearised equations of the regime of that period hold given the next period's rule.", "quantifier": "every regime sequence and exact linear algebra", "why_tests_cant": "all regime sequences", "anchors": ["pynare/core/solve/binding.py:_simulate_hypothesized_paths"]}
{"id": "C61", "title": "The restrained option changes how the guess is updated", "statement": "Turning on the restrained option of the two-constraint solver updates only part of the regime guess per iteration.", "quantifier": "every pair of old and new guesses", "why_tests_cant": "all guesses", "anchors": ["pynare/core/solve/binding.py"]}
{"id": "C62", "title": "Theoretical covariances solve the moment equation", "statement": "The state covariance solves the Lyapunov equation, and the reported covariance matrix of all variables is symmetric and positive semidefinite.", "quantifier": "every solution with exact Lyapunov solve", "why_tests_cant": "all matrices", "anchors": ["pynare/stats/moments.py:cov"]}
{"id": "C63", "title": "Correlations are correlations", "statement": "The reported correlation matrix has unit diagonal where the variance is nonzero, is symmetric, and has entries between -1 and 1.", "quantifier": "every positive semidefinite covariance matrix", "why_tests_cant": "all matrices", "anchors": ["pynare/stats/moments.py:corr"]}
{"id": "C64", "title": "Autocovariances have the advertised lag", "statement": "The k-th reported autocovariance is the covariance between the variables and their k-period lag.", "quantifier": "every solution and k", "why_tests_cant": "all solutions", "anchors": ["pynare/stats/moments.py:autocov"]}
{"id": "C65", "title": "Variance decomposition shares are shares", "statement": "For every variable with positive variance, the contributions of the shocks add up to one when shocks are uncorrelated, and each lies between 0 and 1.", "quantifier": "every solution", "why_tests_cant": "all solutions", "anchors": ["pynare/stats/var.py:var_decomp"]}
{"id": "C66", "title": "Observed data columns follow their labels", "statement": "Data columns given with labels are reordered to the model's observable order.", "quantifier": "every permutation of labels", "why_tests_cant": "n! permutations", "anchors": ["pynare/stats/filters.py:_preprocess_data", "pynare/stats/filters.py:ModelFilter"]}
{"id": "C67", "title": "Plot grids have room for every series", "statement": "The automatic plot grid has exactly as many cells as series, and the number of its columns is the largest divisor not above the square root rounded up.", "quantifier": "every positive number of series", "why_tests_cant": "all n", "anchors": ["pynare/plotting/base.py:_factor_near_square_root"]}
{"id": "C68", "title": "Kronecker helper computes the bilinear form", "statement": "The Kronecker product helper applied to vectors x and y returns for every row the sum over pairs of coefficient times x_i y_j.", "quantifier": "all matrices and vectors", "why_tests_cant": "all sizes", "anchors": ["pynare/utils/numpy.py:matrix_kronecker_product"]}
{"id": "C69", "title": "Variable types are consecutive blocks in decision-rule order", "statement": "After sorting variables into decision-rule order the static, state and forward-looking variables are consecutive blocks, in this order, the mixed ones being the overlap of the last two.", "quantifier": "every incidence pattern in which a variable with lead and lag also occurs in the current period", "why_tests_cant": "2^(3n) patterns; every slice of a solution matrix relies on it", "anchors": ["pynare/core/variables.py:VariableIndexManager.dr_order", "pynare/core/variables.py:VariableTyper"]}
{"id": "C70", "title": "Separately built models do not share parameters", "statement": "Setting a parameter of one model never changes the parameters of a model that was built separately, nor the parameters a model built later starts with.", "quantifier": "all parameter dictionaries and all histories of assignments", "why_tests_cant": "tests build one model per process; sharing shows only across objects and in the default argument", "anchors": ["pynare/core/model.py:Model.__init__", "pynare/core/variables.py:ModelCalibration"]}
{"id": "C71", "title": "An alternative regime is the baseline with exactly the given equations replaced", "statement": "Each alternative regime of a regime-switching model has the variables, shocks, parameters and equations of the baseline, except that each equation number given (also counted from the end) holds the equation given last for it; what is derived from it belongs to those equations.", "quantifier": "all baseline models after any history and all dictionaries of replacements", "why_tests_cant": "all dictionaries, histories and negative indices", "anchors": ["pynare/regimes.py:RegimeSwitchingModel.__init__", "pynare/core/generic.py:DynamicModel.copy"]}
{"id": "C72", "title": "Only determinate models are solved", "statement": "solve() succeeds only for a model with as many explosive eigenvalues (modulus above one, or infinite) as forward-looking variables, and does not refuse a model on account of the order in which the explosive eigenvalues are listed.", "quantifier": "all Jacobians, exact linear algebra", "why_tests_cant": "all models; a solved indeterminate model looks like any other", "anchors": ["pynare/core/model.py:Model.solve", "pynare/core/solve/statespace.py:StateSpace.verify", "pynare/utils/numpy.py:partitioned_qz"]}
{"id": "C73", "title": "Models of every mix of variable types can be solved", "statement": "Models with any numbers of static, backward-looking, mixed and forward-looking variables are accepted by the first-order solver when they are determinate.", "quantifier": "all incidence patterns and Jacobians", "why_tests_cant": "all patterns; most tests use one", "anchors": ["pynare/core/solve/statespace.py:_compute_structural_state_space", "pynare/core/solve/first_order.py:solve_first_order"]}
{"id": "C74", "title": "Second-order simulation works for every number of states and shocks", "statement": "A second-order solution with any positive numbers of variables, states and shocks can be simulated.", "quantifier": "all shapes of solutions", "why_tests_cant": "all shapes; degenerate ones are easily left out", "anchors": ["pynare/simul.py:LinearSimulator._simulate_second_order", "pynare/utils/numpy.py:matrix_kronecker_product"]}
{"id": "C75", "title": "First-order simulation works for every number of variables and shocks", "statement": "A first-order solution with any positive numbers of variables, states and shocks can be simulated, whatever shape its arrays are stored in.", "quantifier": "all shapes of solutions", "why_tests_cant": "all shapes; degenerate ones are easily left out", "anchors": ["pynare/simul.py:LinearSimulator._simulate_first_order", "pynare/utils/numpy.py:ensure_2darray"]}
{"id": "C76", "title": "OccBin uses the decision rules of the reference model", "statement": "The decision rules with which an occasionally binding path starts and ends are those of the first-order solution of the reference model, whatever the order in which the variables are declared.", "quantifier": "all reference models and orders of declaration", "why_tests_cant": "n! orders of declaration; test models happen to declare states in one order", "anchors": ["pynare/core/solve/binding.py:solve_occbin_one_constraint", "pynare/core/solve/binding.py:solve_occbin_two_constraints"]}
{"id": "C77", "title": "OccBin works for every number of states", "statement": "Occasionally binding constraints can be simulated for models with any positive number of state variables.", "quantifier": "all solved reference models", "why_tests_cant": "all shapes of solutions", "anchors": ["pynare/core/solve/binding.py:solve_occbin_one_constraint", "pynare/core/solve/first_order.py:solve_first_order"]}
{"id": "C78", "title": "The default plot grid is at least as wide as high", "statement": "In the default layout there are at most as many rows as columns.", "quantifier": "every number of series", "why_tests_cant": "all n", "anchors": ["pynare/plotting/base.py:PynarePlot.plot", "pynare/plotting/base.py:_factor_near_square_root"]}
{"id": "C79", "title": "Every series is drawn exactly once", "statement": "Whatever the layout of subplots and the number of series, every series is drawn on exactly one of the axes.", "quantifier": "all numbers of series and all layouts", "why_tests_cant": "all combinations of numbers and layouts; the shape of the array of axes depends on them", "anchors": ["pynare/plotting/base.py:PynarePlot.arrange_plot", "pynare/plotting/base.py:PynarePlot._plot_grid", "pynare/plotting/base.py:PynarePlot._plot_column"]}
{"id": "C80", "title": "Every documented plot layout is accepted", "statement": "The layouts 'rect', 'square', 'column' and 'row' are accepted for every positive number of series.", "quantifier": "all documented layouts and numbers of series", "why_tests_cant": "all n; tests use one layout", "anchors": ["pynare/plotting/base.py:PynarePlot.plot", "pynare/plotting/base.py:PynarePlot.arrange_plot"]}
{"id": "C81", "title": "Every determinate solved model has moments", "statement": "For a model with a determinate and stable solution the covariances of its variables can be computed.", "quantifier": "all determinate solved models", "why_tests_cant": "all numbers of variables and states; arrays lose dimensions for small models", "anchors": ["pynare/stats/moments.py:cov", "pynare/core/solve/statespace.py:StateSpace.sigma", "pynare/core/solve/statespace.py:StateSpace.kalman_transition"]}
{"id": "C82", "title": "Variance decompositions are selected by name", "statement": "The decomposition for some variables and shocks consists of the entries of the whole decomposition in the rows and columns of these names, and unknown names are refused.", "quantifier": "all models and all lists of names", "why_tests_cant": "all lists of names, repeated or reordered", "anchors": ["pynare/stats/var.py:var_decomp"]}
{"id": "C83", "title": "Autocorrelations are correlations", "statement": "Autocorrelations of a stable solution lie between -1 and 1.", "quantifier": "every stable solution, lag, and pair of variables", "why_tests_cant": "real-valued parameters; needs positive semidefiniteness of the joint covariance of two periods", "anchors": ["pynare/stats/moments.py:autocorr", "pynare/stats/moments.py:autocov"]}
{"id": "C84", "title": "Model files are read as written", "statement": "A model file written according to the documented grammar is read as exactly its contents: declarations, parameter values, options, tags, equations, local variables, boundary values and shocks in order, and of several blocks of one kind the last. Whatever is accepted is such a file.", "quantifier": "all model files: any number of declarations, assignments, statements and blocks, any expressions, any layout", "why_tests_cant": "The grammar generates infinitely many files; tests cover the handful of files in the repository.", "anchors": ["pynare/parsing/parser.py:DynareParser.model_file", "pynare/parsing/parser.py:DynareParser.variable_preamble", "pynare/parsing/parser.py:DynareParser.model_definition", "pynare/parsing/parser.py:DynareParser.general_model_actions", "pynare/parsing/parser.py:DynareParser.shocks_block"]}
{"id": "C85", "title": "Second-order solutions solve the model to second order", "statement": "The coefficients of a second-order solution on products of states and shocks make the second-order part of every model equation vanish, for all values of the states and shocks.", "quantifier": "all models with a state variable and symmetric second derivatives for which the second-order solution returns; all states and shocks", "why_tests_cant": "all jacobians, hessians and dimensions; the array code has separate branches for single states and single shocks", "anchors": ["pynare/core/solve/second_order.py:SecondOrderSolution.solve", "pynare/core/solve/second_order.py:SecondOrderSolver.solve_ghxx", "pynare/core/solve/second_order.py:SecondOrderSolver.solve_ghxu", "pynare/core/solve/second_order.py:SecondOrderSolver.solve_ghuu", "pynare/utils/numpy.py:generalized_sylvester"]}
{"id": "C86", "title": "The constant of a second-order solution corrects for risk", "statement": "The constant term of a second-order solution makes the expected second-order part of every model equation vanish when the states are at the steady state and next period's shocks have the given covariances.", "quantifier": "all models for which the second-order solution returns; all covariances of shocks", "why_tests_cant": "all jacobians, hessians, covariances and dimensions", "anchors": ["pynare/core/solve/second_order.py:SecondOrderSolver.solve_del2", "pynare/core/solve/second_order.py:SecondOrderSolution.solve"]}
{"id": "C87", "title": "Models solved to first order can be solved to second order", "statement": "For a model that is solved to first order and whose linear systems are regular the second-order solution can be computed.", "quantifier": "all numbers of variables, states, forward-looking variables and shocks", "why_tests_cant": "all combinations of dimensions; numpy drops dimensions of length one", "anchors": ["pynare/core/solve/second_order.py:SecondOrderSolver._setup_system", "pynare/core/solve/second_order.py:SecondOrderSolver._hess_coefs_du", "pynare/core/solve/second_order.py:SecondOrderSolver.solve_ghxu"]}
{"id": "C88", "title": "Second-order coefficients are symmetric", "statement": "The coefficients of a second-order solution on the product of two states, or of two shocks, do not depend on the order of the two.", "quantifier": "all models with symmetric second derivatives for which the second-order solution returns", "why_tests_cant": "all jacobians, hessians and dimensions; follows only from uniqueness of the solution of a Sylvester equation", "anchors": ["pynare/core/solve/second_order.py:SecondOrderSolver.solve_ghxx", "pynare/core/solve/second_order.py:SecondOrderSolver.solve_ghuu"]}
{"id": "C89", "title": "The mean of a solved model is the mean of its process", "statement": "The mean reported for a model is the mean of every stationary process that follows the model's solution: the steady state at first order, and the steady state plus the effect of risk and of the variance of the states at second order.", "quantifier": "all solved models with a stable transition, all covariance matrices of the shocks, both orders of approximation", "why_tests_cant": "all models and all processes; the expectation of a product of random variables cannot be tested exactly", "anchors": ["pynare/stats/moments.py:mean", "pynare/core/solve/second_order.py:SecondOrderSolution.solve"]}
{"id": "C90", "title": "A model without a unique stable solution is refused whenever moments are asked for", "statement": "Every request for the transition arrays or the state covariance of a model whose solution is not unique and stable raises an error, whatever was requested before.", "quantifier": "all state spaces and all sequences of requests", "why_tests_cant": "all histories of requests on one object", "anchors": ["pynare/core/solve/statespace.py:StateSpace.verify", "pynare/core/solve/statespace.py:StateSpace.sigma", "pynare/core/solve/statespace.py:StateSpace.kalman_transition"]}
{"id": "C91", "title": "Sample correlations of a simulation are correlations", "statement": "The correlation matrix of simulated paths is symmetric, has ones on its diagonal, and entries between minus one and one, namely the mean product of deviations over the standard deviations in the periods that are not dropped.", "quantifier": "all simulated paths, all numbers of periods dropped", "why_tests_cant": "all paths; a bound on every entry follows only from the Cauchy-Schwarz inequality", "anchors": ["pynare/simul.py:ModelSimulation.corr", "pynare/simul.py:_drop_simulated_paths"]}
{"id": "C92", "title": "Sample autocorrelations of a simulation lie between minus one and one", "statement": "Every autocorrelation reported for simulated paths that move is a number between minus one and one, for every number of lags that is accepted.", "quantifier": "all simulated paths, all numbers of lags and of periods dropped", "why_tests_cant": "all paths and lags", "anchors": ["pynare/simul.py:ModelSimulation.autocorr"]}
{"id": "C93", "title": "Sample correlations do not depend on units of measurement", "statement": "Multiplying simulated variables by positive numbers and shifting them leaves their sample correlations and autocorrelations as they are.", "quantifier": "all simulated paths, all positive factors, all shifts, all numbers of lags and of periods dropped", "why_tests_cant": "relates two runs, for all paths and units", "anchors": ["pynare/simul.py:ModelSimulation.corr", "pynare/simul.py:ModelSimulation.autocorr"]}
{"id": "C94", "title": "The table of a first-order solution names its coefficients rightly", "statement": "The printed table of a first-order solution shows under the name of every variable its steady state, and beside the name of every state and every shock the coefficients of all variables on it.", "quantifier": "all first-order solutions that are not zero altogether, all names and orders of declaration", "why_tests_cant": "all orderings of variables: states are reordered twice on the way to the table", "anchors": ["pynare/io/summary.py:FirstOrderSummary.policy_arrays", "pynare/io/summary.py:FirstOrderSummary.row_labels", "pynare/io/summary.py:_summarize_array"]}
{"id": "C95", "title": "A threshold leaves out the small rows of a first-order table", "statement": "Printing a first-order solution with a threshold shows the rows that have a coefficient above it, and no others.", "quantifier": "all first-order solutions and thresholds", "why_tests_cant": "all shapes of solutions and all thresholds", "anchors": ["pynare/io/summary.py:FirstOrderSummary.policy_arrays", "pynare/io/summary.py:_summarize_array"]}
{"id": "C96", "title": "The table of a second-order solution names its coefficients rightly", "statement": "The printed table of a second-order solution shows every coefficient on a state, a shock, or a product of two of them beside the names of these.", "quantifier": "all second-order solutions, all names and orders of declaration", "why_tests_cant": "all orderings of variables; a model whose states happen to be in order shows nothing wrong", "anchors": ["pynare/io/summary.py:SecondOrderSummary._policy_arrays", "pynare/io/summary.py:SecondOrderSummary.row_labels"]}
{"id": "C97", "title": "The table of a second-order solution shows every row of large coefficients", "statement": "Every row with a coefficient that is in absolute value at least the threshold is in the printed table of a second-order solution.", "quantifier": "all second-order solutions and thresholds", "why_tests_cant": "all values of the coefficients", "anchors": ["pynare/io/summary.py:SecondOrderSummary._threshold_locs"]}
{"id": "C98", "title": "Every numbered method for steady states can be used", "statement": "The steady state of a model can be computed with each of the methods that are listed under the numbers 0 to 11.", "quantifier": "all methods that can be named, all models, all minimisers", "why_tests_cant": "all methods and models; whether a method is refused depends on no model a test could choose", "anchors": ["pynare/core/steady.py:_SteadyStateManager", "pynare/core/steady.py:SteadyState.compute"]}
{"id": "C99", "title": "The steady state reported solves the equations", "statement": "When the steady state of a model is reported, every equation of the model holds when all variables stay there.", "quantifier": "all models, start values, methods and minimisers", "why_tests_cant": "all models and all outcomes of a numerical search", "anchors": ["pynare/core/steady.py:SteadyState.compute", "pynare/core/steady.py:_define_simple_least_squares", "pynare/core/steady.py:minimize_conjugate_gradient"]}
{"id": "C100", "title": "A steady state computed with a chosen method is kept", "statement": "After the steady state of a model has been computed with a chosen method, the model uses the values found.", "quantifier": "all models, all methods, all sequences of requests", "why_tests_cant": "all sequences of requests", "anchors": ["pynare/core/generic.py:StructuredModel.ss", "pynare/core/steady.py:SteadyState.values"]}
{"id": "C101", "title": "What solve returns is kept, and a failed call changes nothing", "statement": "The solution returned by a call of solve is the one the model has afterwards; a call of solve that raises an exception leaves the model with the solution it had.", "quantifier": "all models, orders, constrained and unconstrained calls", "why_tests_cant": "all outcomes of solvers and all earlier solutions", "anchors": ["pynare/core/model.py:Model.solve", "pynare/core/solve/second_order.py:SecondOrderSolution"]}
{"id": "C102", "title": "Reading results does not change the solution of a model", "statement": "Reading the solution, its first-order part, statistics, or simulating without naming an order leaves a model that was solved with the solution it had.", "quantifier": "all models that were solved, all sequences of such requests", "why_tests_cant": "all histories of requests", "anchors": ["pynare/core/model.py:Model.solution", "pynare/stats/moments.py:cov", "pynare/simul.py:simulate"]}
{"id": "C103", "title": "The two parts of a second-order solution belong together", "statement": "After any sequence of changes, solutions, statistics and simulations, also with exceptions on the way, the first-order and the second-order coefficients of the solution that a model has were computed from the same definition of the model.", "quantifier": "all histories of requests and all outcomes of solvers", "why_tests_cant": "all histories", "anchors": ["pynare/core/model.py:Model.solve", "pynare/core/solve/second_order.py:SecondOrderSolution"]}
{"id": "C104", "title": "Moments do not depend on what was asked before", "statement": "As long as a model is not altered, the moments it reports are those of its first-order solution, whatever was solved, simulated or reported before.", "quantifier": "all histories of requests without alterations", "why_tests_cant": "all histories", "anchors": ["pynare/stats/moments.py:cov", "pynare/stats/moments.py:autocov", "pynare/core/solve/statespace.py:StateSpace.kalman_transition"]}
{"id": "C105", "title": "The first-order solution of a solved model can be read", "statement": "After any successful call of solve the first-order solution of the model can be read.", "quantifier": "all kinds of solutions", "why_tests_cant": "all histories of requests", "anchors": ["pynare/core/model.py:Model.first_order_solution"]}
{"id": "C106", "title": "Constrained solutions can start from given values", "statement": "A solution with an occasionally binding constraint can be computed from given initial values of the variables.", "quantifier": "all models, constraints and initial values", "why_tests_cant": "a claim about all arguments", "anchors": ["pynare/core/model.py:Model.solve", "pynare/core/solve/binding.py:OccBinSolution"]}
{"id": "C107", "title": "Moments after solving are those of the present definition", "statement": "When a model was altered and then solved, the moments it reports are those of its present definition.", "quantifier": "all histories of alterations and requests", "why_tests_cant": "all histories; the error needs statistics to be read between an alteration and a solution", "anchors": ["pynare/core/solve/statespace.py:StateSpace.kalman_transition", "pynare/stats/moments.py:cov", "pynare/core/model.py:Model.solve"]}
{"id": "C108", "title": "A constrained solution starts from the present definition", "statement": "A solution with an occasionally binding constraint uses the first-order solution of the present definition of the model.", "quantifier": "all histories of alterations and requests", "why_tests_cant": "all histories", "anchors": ["pynare/core/solve/binding.py:_process_occbin_parameters", "pynare/core/model.py:Model.solve"]}
{"id": "C109", "title": "The arrays of derivatives are those of the equations at the steady state", "statement": "The jacobian a model reports has a row for each equation and a column for each argument and holds the partial derivatives at the steady state; the second derivatives are symmetric, and both together approximate the equations to second order.", "quantifier": "all models, given that automatic differentiation is exact", "why_tests_cant": "all functions and all points", "anchors": ["pynare/core/linearizing.py:ModelJacobian", "pynare/core/linearizing.py:ModelHessian"]}
{"id": "C110", "title": "The first-order solution satisfies the equations to first order", "statement": "Along the first-order policy, with the next period's shocks at their mean, the residuals of the equations of the model themselves differ from those at the steady state by less than any given multiple of the size of the deviations, once these are small enough.", "quantifier": "all models with a solution, all deviations and shocks", "why_tests_cant": "a limit for all small deviations", "anchors": ["pynare/core/solve/first_order.py:FirstOrderSolution", "pynare/core/expressions.py:DynamicRepr.__call__"]}
{"id": "C111", "title": "The second-order solution satisfies the equations to second order", "statement": "Along the second-order policy without the correction for risk, with the next period's shocks at their mean, the residuals of the equations of the model themselves differ from those at the steady state by less than any given multiple of the square of the size of the deviations, once these are small enough.", "quantifier": "all models with a solution, all deviations and shocks", "why_tests_cant": "a limit for all small deviations", "anchors": ["pynare/core/solve/second_order.py:SecondOrderSolution", "pynare/core/expressions.py:DynamicRepr.__call__"]}
{"id": "C112", "title": "The jacobian for the steady state adds up the jacobian of the model", "statement": "Each entry of the jacobian of the steady-state equations is the sum of the derivatives with respect to the last, present and next value of the variable in the jacobian of the model.", "quantifier": "all models, equations and variables, given that automatic differentiation is exact", "why_tests_cant": "all equations and all values", "anchors": ["pynare/core/linearizing.py:SteadyJacobian", "pynare/core/linearizing.py:ModelJacobian", "pynare/core/steady.py"]}
{"id": "C113", "title": "A constraint is tested period by period", "statement": "Evaluating an occasionally binding constraint along paths gives, for each period, the truth of its two conditions for the values the variables have in that period; conditions may mention variables in the present period and parameters, and nothing else.", "quantifier": "all constraints, parameters and paths", "why_tests_cant": "all expressions and all paths", "anchors": ["pynare/core/solve/binding.py:Constraint.__call__"]}
{"id": "C114", "title": "The linear equations of an alternative regime approximate its equations about the reference steady state", "statement": "The arrays and the constant used for periods in an alternative regime give, for small deviations from the steady state of the reference model, the residuals of the equations of the alternative model up to an error that is small compared with the deviations.", "quantifier": "all pairs of models with their steady states, given exact differentiation", "why_tests_cant": "a limit for all equations and all small deviations", "anchors": ["pynare/core/solve/binding.py:solve_occbin_one_constraint", "pynare/core/solve/binding.py:solve_occbin_two_constraints", "pynare/core/solve/binding.py:_translate_ss"]}
{"id": "C115", "title": "Models are combined as regimes exactly when their variables match", "statement": "A constrained solution accepts two models exactly when they declare the same variables and the same shocks, each in the same order, and the same parameters in any order; otherwise ModelVarError is raised.", "quantifier": "all pairs of models", "why_tests_cant": "all lists of names", "anchors": ["pynare/core/solve/binding.py:_ensure_variables_match"]}
{"id": "C116", "title": "Given shocks hit the named variables", "statement": "Shocks for a constrained solution are accepted exactly when there is a column for each named shock, and then each column hits the variable named in its place, and no other variable is hit.", "quantifier": "all names, shapes of shocks and values", "why_tests_cant": "all lists of names and all arrays", "anchors": ["pynare/core/solve/binding.py:_process_occbin_parameters", "pynare/core/solve/binding.py:_simulate_hypothesized_paths"]}
{"id": "C117", "title": "Constraints are made from pairs of conditions", "statement": "A constraint is made from a Constraint, a pair of conditions or a sequence of pairs, keeps the conditions in the order given and counts the pairs; everything else is refused.", "quantifier": "all arguments", "why_tests_cant": "all sequences of texts", "anchors": ["pynare/core/solve/binding.py:Constraint.__init__", "pynare/core/solve/binding.py:OccBinSolution.__init__"]}
{"id": "C118", "title": "A model read from a file means what the file says", "statement": "The model made from a text has the variables declared in it in their order; parameters and local variables have the values obtained by executing assignments and local definitions from top to bottom; there is one steady and one dynamic residual per equation, with the value of left minus right; boundary values and the covariance matrix are those stated.", "quantifier": "all texts that are a way to write a file of the grammar, with any layout and comments", "why_tests_cant": "all files and all ways to write them", "anchors": ["pynare/core/model.py:Model.from_path", "pynare/core/model.py:Model.from_outline", "pynare/parsing/api.py:read_model", "pynare/parsing/factory.py:ModelFactory"]}
{"id": "C119", "title": "Every well-formed file can be read", "statement": "A file that passes the semantic check, whose expressions have values and whose names are legal and distinct, gives a model whenever its state space can be computed, however it is written.", "quantifier": "all well-formed files and all ways to write them", "why_tests_cant": "all files and all ways to write them", "anchors": ["pynare/core/model.py:Model.from_outline", "pynare/parsing/factory.py:DynareModelFactory"]}
{"id": "C120", "title": "Local variables follow the parameters they are defined by", "statement": "After changing a parameter of a model read from a file, the local variables defined by it have the values their definitions give.", "quantifier": "all files, all histories of changes", "why_tests_cant": "all histories", "anchors": ["pynare/core/model.py:Model.from_outline", "pynare/parsing/factory.py:DynareModelFactory.visit_LocalModelDeclaration", "pynare/core/generic.py:ModelSkeleton.add_params"]}
{"id": "C121", "title": "Local variables can be defined by model variables", "statement": "A local definition may use everything the semantic check lets it use: endogenous variables, shocks, and leads and lags, as in Dynare.", "quantifier": "all files that pass the semantic check", "why_tests_cant": "all definitions", "anchors": ["pynare/parsing/factory.py:DynareModelFactory", "pynare/parsing/semantics.py"]}
{"id": "C122", "title": "A number assigned in a file keeps its value in the equations", "statement": "A name that a file assigns and its equations use has the assigned value in steady and dynamic residuals.", "quantifier": "all files that pass the semantic check", "why_tests_cant": "all files", "anchors": ["pynare/parsing/factory.py:DynareModelFactory.visit_VarAssignment", "pynare/core/model.py:Model.model_scope"]}
{"id": "C123", "title": "Models can be read by path", "statement": "Given the path of a file as a string or a Path, or the name of an example, from_path makes the model from the contents of that file and names it after the file without directory and suffix; otherwise it raises FileNotFoundError.", "quantifier": "all file systems and paths", "why_tests_cant": "all strings and file systems", "anchors": ["pynare/core/model.py:Model.from_path", "pynare/io/files.py:read_file", "pynare/io/files.py:read_example", "pynare/examples/__init__.py:ExampleRegistry"]}
{"id": "C124", "title": "The Kalman recursion predicts as well as linear predictions can", "statement": "After any number of periods the filter's prediction of the states is a fixed linear function of the data that is right on average, has an error uncorrelated with all earlier observations, and the covariances it carries along are those of the errors; no other linear function of the earlier data has an error of smaller variance.", "quantifier": "all linear processes, all numbers of states, observed states and periods, all data", "why_tests_cant": "all processes and data; optimality compares with all linear predictors", "anchors": ["pynare/stats/filters.py:_simple_kalman_transition_selection", "pynare/utils/numpy.py:inv_sym_pd"]}
{"id": "C125", "title": "The filter returns the log-likelihood of the data", "statement": "The number returned by filtering is the Gaussian log-likelihood of the data under the process.", "quantifier": "all linear processes and all data", "why_tests_cant": "all data", "anchors": ["pynare/stats/filters.py:_simple_kalman_transition_selection"]}
{"id": "C126", "title": "A filter of a model can be run", "statement": "A filter made by filter_model can be run by filter(), and loglike() returns a number, for every model.", "quantifier": "all models, observation equations and data", "why_tests_cant": "all models", "anchors": ["pynare/stats/filters.py:KalmanFilter", "pynare/stats/filters.py:filter_model", "pynare/stats/observation.py:ObservedSolution"]}
{"id": "C127", "title": "An observed model is the model with observation equations", "statement": "An observed model has the variables, equations, shocks, parameter and boundary values of the model, and in addition one variable and one equation per observation; its equations mean the same as in the model.", "quantifier": "all models and observation equations", "why_tests_cant": "all models and all points at which equations are evaluated", "anchors": ["pynare/stats/observation.py:ObservedModel", "pynare/core/generic.py:DynamicModel", "pynare/core/generic.py:ModelSkeleton"]}
{"id": "C128", "title": "Tables of statistics show the right numbers", "statement": "The printed tables of moments, correlations and variance decompositions have one line per variable that consists of its name and its numbers, in the order of the headings; every printed word can be read back as a number within half a unit of the last decimal of the statistic.", "quantifier": "all statistics, names and numbers of decimals", "why_tests_cant": "all numbers, including rounding at halves, signs of small numbers and widths of columns", "anchors": ["pynare/io/summary.py:ModelStatisticsSummary", "pynare/io/summary.py:_summarize_array"]}
{"id": "C129", "title": "Columns of the table of autocorrelations have the right headings", "statement": "In the printed table of autocorrelations the column with heading p = i shows the correlation of each variable with itself i periods later.", "quantifier": "all solved models and numbers of lags", "why_tests_cant": "all models", "anchors": ["pynare/io/summary.py:ModelStatisticsSummary.autocorr_str", "pynare/stats/moments.py:autocorr"]}
{"id": "C130", "title": "Every model has a printed summary", "statement": "The summary of a model, of its moments and of its calibration can be printed, whatever the numbers are.", "quantifier": "all models", "why_tests_cant": "all models", "anchors": ["pynare/io/summary.py:ModelSummary", "pynare/core/variables.py:ModelCalibration.__str__"]}
{"id": "C131", "title": "The parameters asked for are shown", "statement": "A summary that is asked for certain parameters, by a name or any iterable of names, shows these with their values, each once and every time it is printed; other names are refused.", "quantifier": "all calibrations and ways to give names", "why_tests_cant": "all calibrations and lists of names", "anchors": ["pynare/io/summary.py:ModelSummary.params_str"]}
{"id": "C132", "title": "A summary shows the features asked for", "statement": "A summary made with a choice of features shows these, in the order given, and nothing else; features that do not exist are refused.", "quantifier": "all models and ways to choose features", "why_tests_cant": "all choices", "anchors": ["pynare/io/summary.py:Summary", "pynare/io/summary.py:ModelSummary.__str__"]}
{"id": "C133", "title": "Statistics of a model accept the arguments of the functions behind them", "statement": "model.stats.name(arguments) computes the statistic of that name of the model with these arguments, given by position or by keyword.", "quantifier": "all statistics and arguments", "why_tests_cant": "all arguments", "anchors": ["pynare/stats/stats.py:ModelStatistics.__getattr__"]}
{"id": "C134", "title": "Printed numbers stand below their headings", "statement": "In the printed tables each number stands in the column of its heading: all lines have the same length and cells the same places.", "quantifier": "all tables of statistics and covariances of shocks", "why_tests_cant": "all magnitudes of numbers", "anchors": ["pynare/io/summary.py:_summarize_array", "pynare/io/summary.py:ModelSummary.stoch_str"]}
{"id": "C135", "title": "The summary of a model shows its variables, eigenvalues and shocks", "statement": "The summary gives the numbers of variables of each kind, all eigenvalues in the order of their moduli, and the covariances of the shocks beside and below their names.", "quantifier": "all models", "why_tests_cant": "all models", "anchors": ["pynare/io/summary.py:ModelSummary"]}
{"id": "C136", "title": "A constrained solution goes on as expected without further shocks", "statement": "The rows after the last shock are those that would result if zero shocks were given for these dates: appending zeros to the shocks, up to the number of periods, changes nothing.", "quantifier": "all regimes, constraints, shocks, starting points and horizons", "why_tests_cant": "all shocks and horizons; the search is repeated from another starting guess at each date", "anchors": ["pynare/core/solve/binding.py:solve_occbin_one_constraint", "pynare/core/solve/binding.py:solve_occbin_two_constraints"]}
{"id": "C137", "title": "A longer horizon continues a constrained solution", "statement": "Asking for more periods gives the same rows, followed by others.", "quantifier": "all regimes, constraints, shocks, starting points and horizons", "why_tests_cant": "all pairs of horizons", "anchors": ["pynare/core/solve/binding.py:solve_occbin_one_constraint", "pynare/core/solve/binding.py:solve_occbin_two_constraints"]}
{"id": "C138", "title": "A second constraint that never binds makes no difference", "statement": "If the second of two constraints never binds, the solution is that with the first constraint alone.", "quantifier": "all regimes, constraints, shocks, starting points and horizons", "why_tests_cant": "two different functions of the code must agree on all inputs", "anchors": ["pynare/core/solve/binding.py:solve_occbin_one_constraint", "pynare/core/solve/binding.py:solve_occbin_two_constraints"]}
{"id": "C139", "title": "The order of two constraints does not matter", "statement": "Exchanging the two constraints together with their regimes gives the same solution.", "quantifier": "all regimes, constraints, shocks, starting points and horizons", "why_tests_cant": "all inputs", "anchors": ["pynare/core/solve/binding.py:solve_occbin_two_constraints"]}
{"id": "C140", "title": "Solving a constrained solution again gives the same paths", "statement": "Calling solve a second time with the same arguments gives the same paths; a call that fails leaves the object as it was.", "quantifier": "all objects and arguments", "why_tests_cant": "all histories of calls", "anchors": ["pynare/core/solve/binding.py:OccBinSolution.solve"]}
{"id": "C141", "title": "A constrained solution uses one regime for each combination of constraints", "statement": "An object with one constraint has two regimes and one with two constraints has four; others are refused.", "quantifier": "all objects", "why_tests_cant": "all numbers of regimes and constraints", "anchors": ["pynare/core/solve/binding.py:OccBinSolution.solve"]}
{"id": "C142", "title": "Impulse responses die out", "statement": "The response of every variable to a shock becomes arbitrarily small as the number of periods grows, at a geometric rate that depends on the model only.", "quantifier": "all models that can be solved, all shocks, sizes and numbers of periods", "why_tests_cant": "a statement about the limit, for all horizons", "anchors": ["pynare/impulse.py:impulse_response", "pynare/core/solve/first_order.py:solve_first_order", "pynare/core/solve/statespace.py:StateSpace.verify", "pynare/utils/numpy.py:partitioned_qz"]}
{"id": "C143", "title": "Without shocks simulations return to the steady state", "statement": "Along a first-order simulation without shocks, from any initial values, all variables converge to the steady state at a geometric rate that depends on the model only.", "quantifier": "all models that can be solved, all initial values and numbers of periods", "why_tests_cant": "a statement about the limit, for all horizons", "anchors": ["pynare/simul.py:LinearSimulator", "pynare/core/solve/first_order.py:solve_first_order"]}
{"id": "C144", "title": "Bounded shocks make for bounded simulations", "statement": "There is a bound on the deviations of a first-order simulation from the steady state that depends only on the model, the size of the initial deviations and that of the shocks, not on the number of periods.", "quantifier": "all models that can be solved, all initial values, shocks and numbers of periods", "why_tests_cant": "one bound for all horizons", "anchors": ["pynare/simul.py:LinearSimulator", "pynare/core/solve/first_order.py:solve_first_order"]}
{"id": "C145", "title": "The solution is the only one that is bounded", "statement": "For a model that passes the check of its state space, from any initial values and any shock there is exactly one bounded path that satisfies the linearised equations, namely the one given by the policy functions.", "quantifier": "all models that pass the check, all initial values and shocks, all paths", "why_tests_cant": "all infinite paths", "anchors": ["pynare/core/solve/statespace.py:StateSpace.verify", "pynare/core/solve/first_order.py:solve_first_order"]}
{"id": "C146", "title": "Covariances that are reported are those of the long run", "statement": "Whenever theoretical covariances are reported, the covariances of any process that follows the policy functions tend to them, wherever it starts.", "quantifier": "all models for which covariances are reported, all processes", "why_tests_cant": "a statement about the limit, for all processes", "anchors": ["pynare/stats/moments.py:cov", "pynare/core/solve/statespace.py:StateSpace"]}
{"id": "C147", "title": "Second-order simulations of stable models stay bounded", "statement": "In a model whose state space passes the check, second-order simulations with bounded shocks stay bounded, whatever the number of periods.", "quantifier": "all models that pass the check, all initial values, shocks and numbers of periods", "why_tests_cant": "one bound for all horizons; products of deviations feed back into themselves", "anchors": ["pynare/simul.py:LinearSimulator._simulate_second_order", "pynare/core/solve/second_order.py:SecondOrderSolution", "pynare/core/solve/statespace.py:StateSpace.verify"]}
{"id": "C148", "title": "The check of the state space decides whether bounded paths are unique", "statement": "Checking a model's state space succeeds exactly if, from any initial values, the linearised equations have exactly one solution path that stays bounded.", "quantifier": "all models whose state space can be built, all initial values, all infinite paths", "why_tests_cant": "it is about all infinite paths; tests can show neither that there is no other bounded path nor that there is none", "anchors": ["pynare/core/solve/statespace.py:StateSpace.verify", "pynare/core/solve/statespace.py:_compute_structural_state_space", "pynare/utils/numpy.py:partitioned_qz"]}
{"id": "C149", "title": "The solution does not depend on the order in which a model is written", "statement": "Two model files with the same equations, parameters and steady state that list the equations, the endogenous variables and the shocks in different order yield the same first-order policy functions: the coefficient of every variable on every state and every shock is the same.", "quantifier": "all models, all orders of equations, variables and shocks", "why_tests_cant": "it compares every model with all its rearrangements, and the solution method treats the orders differently at every step", "anchors": ["pynare/core/solve/first_order.py:solve_first_order", "pynare/core/expressions.py:DynamicRepr", "pynare/core/linearizing.py:ModelJacobian"]}
{"id": "C150", "title": "Covariances do not depend on the order in which a model is written", "statement": "The covariance of any two variables is the same however the equations, the variables and the shocks are ordered in the model file.", "quantifier": "all models, all orders of equations, variables and shocks, all covariances of the shocks", "why_tests_cant": "it compares every model with all its rearrangements", "anchors": ["pynare/stats/moments.py:cov"]}
{"id": "C151", "title": "Simulations and impulse responses do not depend on the order in which a model is written", "statement": "Given the same draws for every shock and the same starting values, the simulated paths and the responses to a shock are the same for every variable, however the equations, the variables and the shocks are ordered in the model file.", "quantifier": "all models, all orders, all draws, all starting values, all numbers of periods", "why_tests_cant": "it compares every model with all its rearrangements, for all horizons", "anchors": ["pynare/simul.py:simulate", "pynare/impulse.py:impulse_response"]}
{"id": "C152", "title": "Whether a model is accepted does not depend on the order in which it is written", "statement": "If a model passes the check of its state space, so does every version of it that lists the equations, the variables and the shocks in another order, and likewise if it is refused.", "quantifier": "all models, all orders of equations, variables and shocks", "why_tests_cant": "it compares every model with all its rearrangements, and the check counts eigenvalues of different matrices in the two versions", "anchors": ["pynare/core/solve/statespace.py:StateSpace", "pynare/core/model.py:Model"]}
{"id": "C153", "title": "The second-order solution is the only one", "statement": "Whatever function of last period's variables and the shocks is added to the first-order solution: if it stays bounded as long as they do, and makes the second-order part of every equation vanish, then it is what the second-order coefficients returned by solve say. The same holds for the constant that corrects for risk.", "quantifier": "all models solved to second order, all functions of the states and the shocks, all constants", "why_tests_cant": "it compares the result with all functions that could take its place", "anchors": ["pynare/core/solve/second_order.py:SecondOrderSolver.solve"]}
{"id": "C154", "title": "Second-order solutions and simulations do not depend on the order a model is written in", "statement": "The same model may be written with its variables, shocks and equations in another order. The second-order coefficients returned by solve then say the same about the same variables and shocks, and so does the correction for risk. A second-order simulation that is given the same draws and starting values shows the same path for the same variables, provided the shocks are uncorrelated or keep their order.", "quantifier": "all models solved to second order, all orders of their variables, shocks and equations, all draws and starting values", "why_tests_cant": "it compares all the ways to write down any model, and every number that depends on them", "anchors": ["pynare/core/solve/second_order.py:SecondOrderSolver.solve", "pynare/simul.py:simulate", "pynare/core/variables.py:VariableTyper"]}
{"id": "C155", "title": "Impulse responses belong to the shocks that are named", "statement": "The impulse responses to a shock asked for by name are those to that shock, whatever its position among the shocks of the model. If no name is given they are those to the first shock. If several names are given the response is the sum of the responses to the single shocks, each counted once even if it is named twice. A name that is not a shock of the model is refused with KeyError.", "quantifier": "all first-order solutions, all models with distinct names of shocks, all names and lists of names, all numbers of periods and sizes", "why_tests_cant": "the responses are computed from positions, and a mistake in translating names to positions only shows for some orders and some lists of names", "anchors": ["pynare/impulse.py:impulse_response", "pynare/core/model.py:Model.impulse_response"]}
{"id": "C156", "title": "First-order simulations are sums of impulse responses", "statement": "The deviations from the steady state in a first-order simulation are those of the simulation without shocks from the same initial values, plus the impulse responses to all shocks of earlier periods, each taken as many periods after its shock and multiplied by the number drawn for it.", "quantifier": "all first-order solutions, all draws, all initial values, all numbers of periods", "why_tests_cant": "it is an identity between two functions of the interface for all draws and periods", "anchors": ["pynare/simul.py:simulate", "pynare/impulse.py:impulse_response"]}
{"id": "C157", "title": "Covariances and autocovariances are sums of products of impulse responses", "statement": "In a stable model the covariance reported for two variables is the limit of the sum, over periods and shocks, of the products of their impulse responses. The autocovariance at a lag is the limit of the same sum in which the responses of the first variable are taken that many periods later.", "quantifier": "all stable first-order solutions, all covariance matrices of the shocks that can be factorised, all pairs of variables, all lags", "why_tests_cant": "it relates a limit of simulated responses to the solution of a matrix equation", "anchors": ["pynare/stats/moments.py:cov", "pynare/stats/moments.py:autocov", "pynare/impulse.py:impulse_response"]}
{"id": "C158", "title": "The variance decomposition compares impulse responses", "statement": "In a stable model the share of the variance of a variable that is attributed to a shock is the limit of the sum of the squared impulse responses to that shock, divided by the sum of these limits over all shocks. The responses are those of the model whose shocks have the small number added to their variances that the decomposition adds.", "quantifier": "all stable first-order solutions, all covariance matrices of the shocks that can be factorised, all variables and shocks", "why_tests_cant": "it relates limits of simulated responses to solutions of matrix equations, and two factorisations of the same matrix", "anchors": ["pynare/stats/var.py:var_decomp", "pynare/impulse.py:impulse_response"]}
{"id": "C159", "title": "First-order solutions of a model file satisfy its equations to first order", "statement": "Take a model made from the text of a model file and solve it to first order. Paths that follow the solution satisfy the equations as they are written in the file, with parameters and local variables having the values the assignments of the file give them, up to an error that is small compared with the deviations and shocks. If the equations have a steady state at all, the steady state reported satisfies them.", "quantifier": "all texts of model files, all values of parameters, all paths that follow the solution and are close enough to the steady state", "why_tests_cant": "it relates the text of the file to the numbers of the solution through every stage between them, and is a statement about limits", "anchors": ["pynare/core/model.py:Model.from_path", "pynare/core/model.py:Model.solve", "pynare/core/generic.py", "pynare/core/steady.py:SteadyState.compute", "pynare/core/linearizing.py", "pynare/core/solve/first_order.py:solve_first_order"]}
{"id": "C160", "title": "Second-order solutions of a model file satisfy its equations to second order", "statement": "Take a model made from the text of a model file and solve it to second order. Paths that follow the solution, without its correction for risk, satisfy the equations as they are written in the file up to an error that is small compared with the square of the deviations and shocks.", "quantifier": "all texts of model files, all values of parameters, all paths that follow the solution and are close enough to the steady state", "why_tests_cant": "it relates the text of the file to the numbers of the solution through every stage between them, and is a statement about limits", "anchors": ["pynare/core/model.py:Model.from_path", "pynare/core/model.py:Model.solve", "pynare/core/linearizing.py", "pynare/core/solve/second_order.py:SecondOrderSolver.solve"]}
{"id": "C161", "title": "Solutions do not depend on the order a model file is written in", "statement": "Take two model files with the same parameter assignments and local definitions, in which the variables and shocks are declared, and the equations written, in different orders. If the equations have one steady state, the models made from the two texts report the same steady state for each variable, and their first-order solutions have the same coefficients, matched by the names of variables and shocks, and are followed by the same paths.", "quantifier": "all pairs of texts of model files that differ in the order of declarations and equations, all values of parameters, all paths", "why_tests_cant": "it compares two runs through reading, steady state, derivatives, decomposition and solution, in which every table and array is laid out differently", "anchors": ["pynare/core/model.py:Model.from_path", "pynare/core/model.py:Model.solve", "pynare/core/variables.py:VariableTyper", "pynare/core/steady.py:SteadyState.compute", "pynare/core/linearizing.py", "pynare/core/solve/first_order.py:solve_first_order"]}
{"id": "C162", "title": "Second-order solutions with the correction for risk satisfy the equations on average to second order", "statement": "Let next period's shocks be a small number times shocks with mean zero and the given covariances, and solve the model to second order with the covariances of the small shocks. Along the solution, with its constant for risk, the expected residuals of the equations of the model themselves differ from those at the steady state by less than any given multiple of the square of the size of deviations and shocks, once these are small enough. Multiplying all covariances by a number multiplies the constant by it and changes nothing else in the solution.", "quantifier": "all models with a second-order solution, all finitely distributed shocks with mean zero and the given covariances, all deviations", "why_tests_cant": "a limit for all small deviations and shocks, and an average over every distribution with given covariances", "anchors": ["pynare/core/solve/second_order.py:SecondOrderSolution", "pynare/core/solve/second_order.py:SecondOrderSolver.solve_del2", "pynare/core/expressions.py:DynamicRepr.__call__"]}
{"id": "C163", "title": "The equations of a model file hold on average along its second-order solution", "statement": "Make a model from the text of a file and solve it to second order. Let next period's shocks be a small number times shocks with mean zero and the variances, covariances and correlations stated in the shocks block. Along the solution, with the constant for risk that belongs to shocks of this size, the expected difference of the two sides of every equation of the file differs from that at the steady state by less than any given multiple of the square of the size of deviations and shocks, once these are small enough.", "quantifier": "all texts of model files with a shocks block, all distributions with the stated covariances, all deviations", "why_tests_cant": "a chain through lexing, parsing, reading of the shocks block, derivatives and both solvers, with a limit and an average at its end", "anchors": ["pynare/core/model.py:Model.from_path", "pynare/core/model.py:Model.solve", "pynare/core/solve/second_order.py:SecondOrderSolution", "pynare/parsing/factory.py"]}
{"id": "C164", "title": "A model with exactly one bounded path is solved to second order", "statement": "Take a model whose linearised equations have exactly one bounded path from every starting point, and whose mix of variables is one that is supported. It passes the check and is solved to first order. It is solved to second order if and only if it has several variables, a forward-looking one, several states unless there are several forward-looking variables, several shocks if there are several states, and, with one state and several shocks, a number of forward-looking variables other than the number of shocks.", "quantifier": "all mixes and numbers of variables and shocks, all coefficients", "why_tests_cant": "that none of the systems of the second-order solution is singular follows from the single bounded path, for all models at once", "anchors": ["pynare/core/solve/second_order.py:SecondOrderSolution", "pynare/core/solve/first_order.py:solve_first_order", "pynare/utils/numpy.py:generalized_sylvester"]}
{"id": "C165", "title": "Which model files are solved", "statement": "Take a model file that can be read, with as many equations as variables, every variable occurring in the current period, at least one shock, and a variance for every shock named first in a correlation. Suppose its equations have exactly one point of rest, and about it exactly one bounded path of small deviations from every starting point. Then making a model from the text and solving it to first order succeeds if and only if some variable occurs with a lead, and either some variable occurs with a lag and without a lead or exactly one occurs with both.", "quantifier": "all texts of model files, all parameter values, all mixes of variables", "why_tests_cant": "ties the equations as written to whether the whole chain of parsing, steady state, linearisation, decomposition and solution raises, for all files", "anchors": ["pynare/parsing/api.py", "pynare/core/model.py", "pynare/core/steady.py", "pynare/core/linearizing.py", "pynare/core/solve/statespace.py", "pynare/core/solve/first_order.py:solve_first_order"]}
{"id": "C166", "title": "Which model files are solved to second order", "statement": "Take a model file as in C165 whose equations can be differentiated twice at the point of rest. Making a model from the text and solving it to second order succeeds if and only if it can be solved to first order, there are several variables, some variable occurs with a lead, several variables occur with a lag unless several occur with a lead, there are several shocks if several variables occur with a lag, and, with one variable with a lag and several shocks, the number of variables with a lead differs from the number of shocks.", "quantifier": "all texts of model files, all parameter values, all mixes and numbers of variables and shocks", "why_tests_cant": "whether the second-order solver raises depends on the counts in the file for all files at once; a test meets a few combinations", "anchors": ["pynare/parsing/api.py", "pynare/core/model.py", "pynare/core/linearizing.py", "pynare/core/solve/first_order.py:solve_first_order", "pynare/core/solve/second_order.py:SecondOrderSolution", "pynare/utils/numpy.py:generalized_sylvester"]}
{"id": "C167", "title": "Equivalent equations have the same solution", "statement": "Take two model files, each with exactly one steady state and the same one by name, whose models pass the check. If near the steady state the equations of one file imply those of the other (an error of a given size in the first allows at most a fixed multiple of it in the second), where the second may declare fewer variables and shocks, then values of last period, shocks and present values that are related by the solution of the first are related by that of the second. If the equations imply each other and the files declare the same names, the two models have the same steady state and the same solution. In particular exchanging the two sides of equations changes neither.", "quantifier": "all pairs of texts of model files with such equations, all parameter values, all orders of declarations, all values of the variables and shocks", "why_tests_cant": "a user may write an equation in any of many equivalent ways and expects one model; a test compares two files at a time", "anchors": ["pynare/parsing/api.py", "pynare/core/model.py", "pynare/core/steady.py", "pynare/core/linearizing.py", "pynare/core/solve/statespace.py", "pynare/core/solve/first_order.py:solve_first_order"]}
{"id": "C168", "title": "The order of a model file does not matter for the second-order solution", "statement": "Take two model files that declare the same names and have the same equations, and the same statements about the shocks, in different order, and for which the same steady state is reported. If both are solved to second order and pass the check, then the two solutions are the same by name: values of last period, shocks and present values are related by one, including the correction for risk, if and only if they are related by the other.", "quantifier": "all pairs of texts of such model files, all parameter values, all values of the variables and shocks, all multiples of the correction for risk", "why_tests_cant": "reordering declarations permutes every array of the solution; a test compares two orders of one model", "anchors": ["pynare/parsing/api.py", "pynare/parsing/factory.py", "pynare/core/model.py", "pynare/core/linearizing.py", "pynare/core/solve/statespace.py", "pynare/core/solve/second_order.py"]}
{"id": "C169", "title": "Rewriting the equations equivalently leaves the second-order solution, but not its correction for risk, unchanged", "statement": "Take two model files that declare the same variables and shocks, in whatever order, whose equations imply each other near the steady state reported for both. If both are solved to second order and pass the check, then the two solutions without their constants are the same by name: values of last period, shocks and present values are related by one if and only if they are related by the other. The constants can differ: replacing an equation g = 0 by the equivalent g + g*g = 0 changes the constant for risk, because it changes what is expected to be zero.", "quantifier": "all pairs of texts of such model files, all parameter values, all values of the variables and shocks; for the constants two concrete files", "why_tests_cant": "which algebraic form a user writes an equation in is arbitrary; a test compares two forms of one model, and would need to know which parts of the solution are meant to be equal", "anchors": ["pynare/parsing/api.py", "pynare/parsing/factory.py", "pynare/core/model.py", "pynare/core/linearizing.py", "pynare/core/solve/statespace.py", "pynare/core/solve/second_order.py"]}
{"id": "C170", "title": "Combining equations linearly leaves the whole second-order solution, with its correction for risk, unchanged", "statement": "Take two model files that declare the same variables and shocks and make the same statements about the shocks, in whatever order. Suppose that near the steady state reported for both the equations of each are linear combinations, with constant coefficients, of those of the other: for instance, the two sides of some equations are exchanged, or an equation is multiplied by a number or added to another. If both are solved to second order and pass the check, the two solutions are the same by name, with the correction for risk taken any number of times. Together with C169 this says which rewriting of the equations is safe at second order.", "quantifier": "all pairs of texts of such model files, all parameter values, all covariances of the shocks, all values of the variables and shocks, all multiples of the correction for risk", "why_tests_cant": "how an equation is arranged is arbitrary; a test compares a few arrangements of one model up to rounding, and cannot show that no arrangement matters", "anchors": ["pynare/parsing/api.py", "pynare/parsing/factory.py", "pynare/core/model.py", "pynare/core/linearizing.py", "pynare/core/solve/statespace.py", "pynare/core/solve/second_order.py"]}
{"id": "C171", "title": "Printing the equations of a model", "statement": "str() of the equations of a model succeeds exactly if there is at least one equation and each was given as a text with exactly one equals sign, and raises ValueError otherwise. What it prints is a heading and one line for each equation, in order: four blanks, the left side, the equals sign, the right side, each side as it was written without white space at its ends, and all equals signs in the same column. A printed line has the same tokens as the text of its equation, so it is read as the same equation. The equations of a model read from a file can therefore never be printed: they are kept without their texts.", "quantifier": "all containers of equations, all texts, all model files, all equations added to a model that was read from a file", "why_tests_cant": "tests print a few equations; they do not show which texts, out of all that are accepted as equations, cannot be printed or are printed as something else", "anchors": ["pynare/core/expressions.py:ModelExprs", "pynare/core/model.py"]}
{"id": "C172", "title": "Names do not matter", "statement": "A model made with other names for its variables, shocks and parameters is the same model in other names: it can be made exactly if the first can (and otherwise raises the same exception), it has the same table of leads and lags, the same residual functions, the same covariance matrix, the same steady state, jacobian and solution, position by position; its copies correspond; and any history of the same operations in other names raises the same exceptions and ends in the same model in other names.", "quantifier": "all changes of names, all arguments of a model, all histories of operations on it, whatever the numerical libraries compute", "why_tests_cant": "tests use fixed names; names are keys of dictionaries, are sorted, searched, and have suffixes glued to them in many places, and no finite set of names shows that only their being different matters", "anchors": ["pynare/core/model.py", "pynare/core/generic.py", "pynare/core/variables.py", "pynare/core/expressions.py"]}
{"id": "C173", "title": "Sorted eigenvalues", "statement": "eigvals_sorted returns the eigenvalues of the matrix sorted by magnitude in the order asked for, each as often as it occurs; one order is the other read backwards. With k it returns k of them (all if there are fewer), none of which is smaller in magnitude (descending) or larger (ascending) than one that is left out. Any other name of an order raises ValueError.", "quantifier": "all matrices, both orders, all k, any treatment of ties by the sorting routine", "why_tests_cant": "tests compare a few spectra; they do not cover ties and complex pairs, or all k", "anchors": ["pynare/utils/numpy.py:eigvals_sorted"]}
{"id": "C174", "title": "Adding variables with equations of their own", "statement": "Adding variables and shocks to a model file together with further equations (say, variables that are only reported), without touching the equations that were there, changes neither the steady state nor the solution of the variables that were there: last period's values, shocks and present values are related by the solution of the smaller file exactly when they are by that of the larger one for some values of the added variables.", "quantifier": "all pairs of files of which one contains the variables, shocks and equations of the other, in whatever order, all numbers, all exact libraries, different ones for each file", "why_tests_cant": "a test adds one variable to one model; it cannot cover all equations that may be added, or all places where they may be put", "anchors": ["pynare/core/model.py", "pynare/core/solve/first_order.py:solve_first_order", "pynare/parsing/api.py"]}
{"id": "C175", "title": "Writing a model in other variables", "statement": "If a model file says about functions of its variables what another file says about the variables themselves (say, one is written with exp(x) where the other has x, so that x is a logarithm in the one and a level in the other, or one counts in thousands), then the steady state of the second file is the function of that of the first, and the two first-order solutions say the same in different units: a deviation of a variable in the second file is its deviation in the first times the derivative of the function at the steady state (for logarithms: times the steady level).", "quantifier": "all pairs of files, all functions of the variables and of the shocks with a derivative at the steady state that is not zero, all numbers, all exact libraries, different ones for each file", "why_tests_cant": "a test rewrites one model with one function; it cannot cover all functions, equations and steady states", "anchors": ["pynare/core/model.py", "pynare/core/solve/first_order.py:solve_first_order", "pynare/core/linearizing.py", "pynare/parsing/api.py"]}
{"id": "C176", "title": "Collections of variables", "statement": "A collection of variables can be made exactly of variables of one type, and is refused with a TypeError otherwise; it has their names in order and their type. A name, or a variable of whatever type, is in a collection exactly if some variable of the collection has that name. Choosing variables by position never fails for positions that exist and keeps order and type, except that choosing nothing loses the type.", "quantifier": "all lists of variables and other objects, all names, all lists of positions", "why_tests_cant": "a test makes a few collections; it cannot cover all mixtures of objects", "anchors": ["pynare/core/variables.py:VarArray", "pynare/core/variables.py:ModelVar"]}
{"id": "C177", "title": "What a printed variable shows", "statement": "The text of an endogenous variable shows its name and all of its boundary values, so that different ones have different texts, and it never lacks a value; the text of a collection shows the names in order and the type; the text of a shock shows its name, variance and what is stored about its relation to a second shock. The last is false: a correlation of zero is printed as a missing covariance.", "quantifier": "all variables and shocks whose names have no commas and parentheses, all legible ways to print numbers", "why_tests_cant": "that no two different variables print alike is a statement about all pairs", "anchors": ["pynare/core/variables.py:EndogVar", "pynare/core/variables.py:StochVar", "pynare/core/variables.py:VarArray"]}
{"id": "C178", "title": "Simulations and impulse responses in other variables", "statement": "If one model file says about functions of its variables what another says about the variables directly (logarithms and levels, other units, other signs), then simulations of both with the same draws of the shocks, from corresponding starting values, are related in every period: the deviation of a variable from its steady state in the second is that in the first times the derivative of the function at the steady state. The same holds of impulse responses.", "quantifier": "all pairs of model files whose equations say the same about transformed variables, all functions that have a derivative at the steady state, all draws, starting values and lengths", "why_tests_cant": "a test compares two files and one draw", "anchors": ["pynare/simul.py", "pynare/impulse.py", "pynare/core/solve/first_order.py:solve_first_order", "pynare/parsing/api.py"]}
{"id": "C179", "title": "The initval block is where the search for the steady state starts", "statement": "The steady state of a model read from a file is the point at which a minimiser stops that was given the sum of the squared differences of left and right sides of the equations at rest, and as starting values those of the initval block (the last given to each variable; zero for a variable of which no boundary block says anything; not-a-number for one with a terminal value only). So if the equations hold at the values of the initval block and the minimiser does not leave a point where its objective is zero, these values are the steady state, also in models that have several.", "quantifier": "all model files that can be read, all minimisers", "why_tests_cant": "a test sees one result of one minimiser; which of several steady states is found depends on where the search starts", "anchors": ["pynare/core/generic.py:StructuredModel.initial", "pynare/core/steady.py:SteadyState", "pynare/core/variables.py:EndogVar", "pynare/parsing/factory.py"]}
{"id": "C180", "title": "Covariances and correlations do not depend on how variables are measured", "statement": "If a file says about given functions of its variables (logarithms, say, or other units) and of its shocks what another file says about them directly, and the covariances of the shocks are related by the slopes of these functions, then the covariance of two variables reported for the second model is that reported for the first times the slopes at the steady state. The correlation is the same, or its sign changes if exactly one of the two functions is falling.", "quantifier": "all pairs of model files, all differentiable changes of variables, all covariances of the shocks, correlated or not", "why_tests_cant": "a test compares two given files; the two models are solved with different arrays in a different order of variables, and both covariance matrices come out of a Lyapunov solver", "anchors": ["pynare/stats/moments.py:cov", "pynare/stats/moments.py:corr", "pynare/core/solve/statespace.py", "pynare/core/solve/first_order.py:solve_first_order"]}
{"id": "C181", "title": "The shocks block does not affect the solution, but for the correction for risk", "statement": "Two model files that differ in their shocks blocks only give models with the same variables, equations, steady state and state space, and solve returns the same first-order solution for both. Their second-order solutions have the same arrays but for the correction for risk; if all covariances are multiplied by a number, so is the correction for risk.", "quantifier": "all pairs of model files that differ in their shocks blocks only, all numbers by which the covariances are multiplied", "why_tests_cant": "a test compares two given shocks blocks; the claim is about every other shocks block a user may write", "anchors": ["pynare/parsing/factory.py", "pynare/core/model.py", "pynare/core/solve/first_order.py:solve_first_order", "pynare/core/solve/second_order.py"]}
{"id": "C182", "title": "Moments are linear in the covariances of the shocks", "statement": "For a solved model whose states return to the steady state without shocks, the covariances and autocovariances reported are linear in the covariances of the shocks: if these are a times those in one case plus b times those in another, so are the covariances and autocovariances of the variables. If all covariances of the shocks are multiplied by a positive number, the covariances of the variables are multiplied by it, and the correlations and autocorrelations do not change.", "quantifier": "all solved models with stable states, all covariance matrices of the shocks, all numbers a and b, all lags", "why_tests_cant": "a test compares moments for some covariance matrices; the claim ranges over all of them and all combinations", "anchors": ["pynare/stats/moments.py:cov", "pynare/stats/moments.py:autocov", "pynare/stats/moments.py:corr", "pynare/stats/moments.py:autocorr"]}
{"id": "C183", "title": "Autocovariances at further lags", "statement": "Asking for the autocovariances or autocorrelations at more lags leaves those at the first lags as they are. In a solved model whose states return to the steady state without shocks, the autocovariance of any two variables, and their autocorrelation where it is a number, are as small as one likes from some lag on.", "quantifier": "all solved models with stable states, all covariance matrices of the shocks, all pairs of variables, all numbers of lags", "why_tests_cant": "a test looks at some lags of some models; the claim is about all lags beyond any bound", "anchors": ["pynare/stats/moments.py:autocov", "pynare/stats/moments.py:autocorr"]}
{"id": "C184", "title": "Simulations and impulse responses scale with the standard deviations of the shocks", "statement": "If the standard deviations of all shocks are k times as large and their correlations are the same, a path simulated to first order from the same draws deviates from the steady state k times as much, and the response to a shock of a given number of standard deviations is k times as large.", "quantifier": "all solved models, all covariance matrices of the shocks, all positive numbers k, all draws, all shocks and numbers of periods", "why_tests_cant": "a test compares paths for two covariance matrices; the claim ranges over all of them, over all draws and horizons", "anchors": ["pynare/simul.py", "pynare/impulse.py", "pynare/core/model.py:Model.simulate", "pynare/core/model.py:Model.impulse_response"]}
{"id": "C185", "title": "Larger standard deviations in the shocks block of a model file", "statement": "Take two model files that differ in their shocks blocks only, and let the standard deviations of the second be k times those of the first: variances and covariances are k times k as large, correlations are the same. Then the first-order policy functions of the two models are the same, the covariance matrix of the shocks of the second is k times k that of the first, its impulse responses are k times as large, and the covariances of its variables are k times k as large.", "quantifier": "all model files that can be read and solved, all shocks blocks, all positive numbers k, all shocks and numbers of periods", "why_tests_cant": "a test solves two files; the claim ranges over all files, all shocks blocks and all numbers k", "anchors": ["pynare/parsing/factory.py", "pynare/core/model.py:Model.Sigma", "pynare/impulse.py", "pynare/stats/moments.py"]}
{"id": "C186", "title": "What data a filter accepts", "statement": "Data for a filter are accepted exactly if they have one column for each observed variable: an array of as many columns, a frame whose labels are the names of the observed variables in some order, or a series with the name of the only one. Other data are refused.", "quantifier": "all lists of observed variables; all arrays of one or two dimensions, frames and series", "why_tests_cant": "a test tries some data; the claim ranges over all labels, shapes and observed variables", "anchors": ["pynare/stats/filters.py:_preprocess_data", "pynare/stats/filters.py:ModelFilter"]}
{"id": "C187", "title": "Variance decompositions do not depend on the size of all shocks", "statement": "If the standard deviations of all shocks are multiplied by the same positive number and their correlations are the same, the variance decomposition is the same.", "quantifier": "all solved models with several shocks, all covariance matrices of the shocks, all positive numbers", "why_tests_cant": "a test compares two covariance matrices; the claim ranges over all of them", "anchors": ["pynare/stats/var.py:var_decomp"]}
{"id": "C188", "title": "The correction for risk is linear in the covariances of the shocks", "statement": "If three models differ in their shocks blocks only, and each covariance of the third is a times that of the first plus b times that of the second, then the correction for risk in the third second-order solution is a times that of the first plus b times that of the second. A model whose shocks have no variance and no covariance has no correction for risk.", "quantifier": "all model files, all shocks blocks, all numbers a and b for which the three files can be read and solved to second order", "why_tests_cant": "a test compares a few covariance matrices; the claim ranges over all of them, and over all models", "anchors": ["pynare/core/solve/second_order.py:solve_del2", "pynare/core/models.py:Model.solve"]}
{"id": "C189", "title": "The number of unsolved parameters in the message is the number of parameters that the definitions do not determine", "statement": "If every name in a calibration is defined, ordering the calibration fails with a message about unsolved parameters exactly if some parameter is not determined by the definitions (a parameter is determined if all that its definition mentions is), and the number in the message is the number of such parameters, with the plural exactly if it is above one.", "quantifier": "all calibrations, with any number of parameters, cycles and parameters that depend on cycles", "why_tests_cant": "a test tries a few cycles; the claim ranges over all dependency graphs, and over how many passes the ordering needs", "anchors": ["pynare/core/variables.py:order_precedence", "pynare/errors/__init__.py:CalibrationError"]}
{"id": "C190", "title": "Messages about identification state the numbers that disagree", "statement": "If the number of explosive eigenvalues is not that of forward-looking variables, the message states both, in this order; the message about the rank condition of Blanchard and Kahn is given exactly if they agree and the block has not full rank; and if the static variables are not identified, the message states the rank and the number of static variables.", "quantifier": "all models and all results of the decompositions", "why_tests_cant": "a test sees one message; the claim is about all numbers and about which of the checks fails first", "anchors": ["pynare/errors/__init__.py:ModelIdentificationError", "pynare/core/solve/statespace.py:StateSpace._run_verification", "pynare/core/solve/statespace.py:_compute_structural_state_space"]}
{"id": "C191", "title": "Each further argument of a plot reaches the figure or the lines, and rows and columns that are given take precedence over the layout", "statement": "Each keyword argument of plot is passed on unchanged, to pyplot.subplots if it is one of its documented names and to the drawing of lines otherwise, never to both; the lines get no argument that was not given, and the figure only a tight layout and the numbers of rows and columns that were not given. With subplots, rows and columns that are given take precedence over the layout. With squeeze=False every series is drawn exactly once, also if there is one series only. Without subplots all series are drawn on one axes, and more than one row or column is refused.", "quantifier": "all dictionaries of keyword arguments, all layouts, all numbers of series, rows and columns", "why_tests_cant": "a test passes a few arguments; the claim ranges over all sets of arguments, while the dictionary is changed as it is read", "anchors": ["pynare/plotting/base.py:PynarePlot.plot", "pynare/plotting/base.py:PynarePlot.arrange_plot", "pynare/plotting/base.py:_generate_subplots"]}
{"id": "C192", "title": "Messages about syntax errors state the position of the token", "statement": "The line and the column in a message about a syntax error are those of the point of the text just after the token that was not expected.", "quantifier": "all texts that can be read as tokens, and all tokens in them", "why_tests_cant": "a test looks at one error in one text; whether a position is overwritten depends on all that follows in the text", "anchors": ["pynare/errors/__init__.py:PynareSyntaxError", "pynare/parsing/parser.py:BaseParser.error", "pynare/parsing/lexer.py:BaseLexer._id", "pynare/parsing/base.py:reserved_funcs"]}
