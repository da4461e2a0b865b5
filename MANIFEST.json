{
 "claims": [
  {
   "property": "C01",
   "status": "proved",
   "theorems": [
    "C01_order_is_topological"
   ],
   "note": ""
  },
  {
   "property": "C02",
   "status": "proved",
   "theorems": [
    "C02_order_succeeds_iff_acyclic",
    "C02_undefined_name_keyError"
   ],
   "note": ""
  },
  {
   "property": "C03",
   "status": "proved",
   "theorems": [
    "C03_calibration_is_the_solution",
    "C03_calibration_complete"
   ],
   "note": ""
  },
  {
   "property": "C04",
   "status": "proved",
   "theorems": [
    "C04_calibration_order_independent"
   ],
   "note": ""
  },
  {
   "property": "C05",
   "status": "partial",
   "theorems": [
    "C05_history_consistent_partial",
    "C05_failed_set_keeps_values_partial",
    "C05_failed_set_pollutes",
    "C05_delete_leaves_dangling"
   ],
   "note": "False as stated: a refused assignment still changes the stored definitions, and deletion does not re-check. Refuted by witnesses; holds for histories of accepted updates whose deletions leave no dangling mention."
  },
  {
   "property": "C06",
   "status": "partial",
   "theorems": [
    "C06_base_lexer_terminates",
    "C06_hang_only_in_unfinished_comment_partial",
    "C06_terminates_newline_partial",
    "C06_unfinished_comment_hangs"
   ],
   "note": "False for model files: an unfinished comment at the end of the file loops for ever (refuted for every prefix). Proved for expression strings, and a hang only happens in an unfinished comment."
  },
  {
   "property": "C07",
   "status": "proved",
   "theorems": [
    "C07_line_comment_invisible"
   ],
   "note": ""
  },
  {
   "property": "C08",
   "status": "partial",
   "theorems": [
    "C08_block_comment_blank_partial",
    "C08_inner_star_ends_comment",
    "C08_inner_slash_ends_comment",
    "C08_line_comment_after_block"
   ],
   "note": "False as stated (three witnesses); proved for comments without star or slash in the contents that are not followed by a line comment."
  },
  {
   "property": "C09",
   "status": "proved",
   "theorems": [
    "C09_lexing_inverts_printing",
    "C09_trailing_layout",
    "C09_blank_separated"
   ],
   "note": ""
  },
  {
   "property": "C10",
   "status": "partial",
   "theorems": [
    "C10_positions_partial",
    "C10_position_wrong_after_block_comment"
   ],
   "note": "Wrong after a block comment that ends early (witness); proved for all other texts."
  },
  {
   "property": "C100",
   "status": "partial",
   "theorems": [
    "C100_false",
    "C100_kept_partial"
   ],
   "note": "False: a model makes another steady-state object each time it is asked. On an object that the caller keeps, the last computation that returned is used."
  },
  {
   "property": "C101",
   "status": "partial",
   "theorems": [
    "C101_false",
    "C101_kept_partial",
    "C101_failed_partial",
    "C101_unchanged_partial"
   ],
   "note": "The first half is proved. False for failed calls: a second-order call that fails leaves the first-order solution, and so can a failed constrained call. Nothing else can happen, which is proved."
  },
  {
   "property": "C102",
   "status": "partial",
   "theorems": [
    "C102_false",
    "C102_linear_partial"
   ],
   "note": "False: statistics replace a constrained solution. Proved for first- and second-order solutions and all sequences of readings."
  },
  {
   "property": "C103",
   "status": "proved",
   "theorems": [
    "C103_same_definition"
   ],
   "note": "Invariant over all histories, with alterations and exceptions."
  },
  {
   "property": "C104",
   "status": "proved",
   "theorems": [
    "C104_history"
   ],
   "note": "Invariant over all histories without alterations."
  },
  {
   "property": "C105",
   "status": "partial",
   "theorems": [
    "C105_false",
    "C105_readable_partial"
   ],
   "note": "False: a constrained solution has no order, reading the first-order solution raises. Exactly then, which is proved."
  },
  {
   "property": "C106",
   "status": "partial",
   "theorems": [
    "C106_refused",
    "C106_type_error"
   ],
   "note": "False: init stays among the keyword arguments and every such call raises; where the call without init returns, the exception is TypeError."
  },
  {
   "property": "C107",
   "status": "partial",
   "theorems": [
    "C107_false",
    "C107_fresh_partial",
    "C107_altered_partial"
   ],
   "note": "False: the state space keeps transition arrays made from an old solution. Proved if none are kept when the model is solved, in particular if it is solved at once after it was altered."
  },
  {
   "property": "C108",
   "status": "partial",
   "theorems": [
    "C108_false",
    "C108_reference_partial"
   ],
   "note": "False: a solution made before an alteration is used as it is. Proved for models without such a solution and for several regimes."
  },
  {
   "property": "C109",
   "status": "proved",
   "theorems": [
    "C109_jacobian",
    "C109_hessian",
    "C109_lengths"
   ],
   "note": "For automatic differentiation that is exact where it answers; the second half over the real numbers (symmetry of second derivatives)."
  },
  {
   "property": "C11",
   "status": "partial",
   "theorems": [
    "C11_sound_partial",
    "C11_complete",
    "C11_unambiguous",
    "C11_published_ambiguous",
    "C11_calls_dropped"
   ],
   "note": "Soundness holds except that of two calls side by side the first is dropped (refuted in general); completeness holds for the grammar in which the operand of a sign is as long as possible; the published grammar is ambiguous (witness), so completeness cannot hold for it."
  },
  {
   "property": "C110",
   "status": "proved",
   "theorems": [
    "C110_first_order_accuracy"
   ],
   "note": "For exact linear algebra; a statement about the functions of the equations, not about their linearisation."
  },
  {
   "property": "C111",
   "status": "proved",
   "theorems": [
    "C111_second_order_accuracy"
   ],
   "note": "For exact linear algebra; a statement about the functions of the equations, not about their derivatives."
  },
  {
   "property": "C112",
   "status": "partial",
   "theorems": [
    "C112_columns_partial"
   ],
   "note": "Proved under the conditions under which both kinds of functions agree (C35); without them the functions differ."
  },
  {
   "property": "C113",
   "status": "partial",
   "theorems": [
    "C113_rowwise_partial",
    "C113_constant",
    "C113_names",
    "C113_false"
   ],
   "note": "False: a condition that mentions no variable (one in parameters alone) is refused. Holds when both conditions mention a variable; leads, lags and shocks are always refused."
  },
  {
   "property": "C114",
   "status": "partial",
   "theorems": [
    "C114_constant",
    "C114_approximates_partial",
    "C114_false"
   ],
   "note": "False: derivatives are taken at the alternative model's own steady state, the constant at the reference model's. Holds when the derivatives agree at both; the constant is always right."
  },
  {
   "property": "C115",
   "status": "proved",
   "theorems": [
    "C115_models_match"
   ],
   "note": ""
  },
  {
   "property": "C116",
   "status": "partial",
   "theorems": [
    "C116_accepted_partial",
    "C116_hit",
    "C116_periods",
    "C116_false"
   ],
   "note": "False: a list with one name and a vector of shocks are refused. Holds for all other arguments; what is accepted hits the named variables."
  },
  {
   "property": "C117",
   "status": "partial",
   "theorems": [
    "C117_pairs_partial",
    "C117_false"
   ],
   "note": "False: a Constraint that is given is refused though the signature allows it. Holds for all other arguments."
  },
  {
   "property": "C118",
   "status": "partial",
   "theorems": [
    "C118_text_partial",
    "C118_shocks_partial"
   ],
   "note": "False in general, for the reasons given at C24, C25, C29, C33, C122. Holds for files with plain parameters, equations and shocks; residuals, scope, bounds and covariance matrix are all covered."
  },
  {
   "property": "C119",
   "status": "proved",
   "theorems": [
    "C119_readable"
   ],
   "note": "The conditions are listed in Readable (Spec/Reading.lean). The computation of the state space is a parameter."
  },
  {
   "property": "C12",
   "status": "proved",
   "theorems": [
    "C12_print_parse",
    "C12_comparison",
    "C12_text",
    "C12_minimal"
   ],
   "note": "Also for model equations with period variables, for comparisons, and from text; the printed form is shortest among all phrases of the tree."
  },
  {
   "property": "C120",
   "status": "partial",
   "theorems": [
    "C120_frozen",
    "C120_false"
   ],
   "note": "False: local variables are numbers computed once; no history changes them."
  },
  {
   "property": "C121",
   "status": "partial",
   "theorems": [
    "C121_locals_partial",
    "C121_false"
   ],
   "note": "False: a local definition that uses anything but parameters and local variables above it makes reading fail, though the semantic check accepts it."
  },
  {
   "property": "C122",
   "status": "partial",
   "theorems": [
    "C122_no_value",
    "C122_false"
   ],
   "note": "False: a name that is assigned but not declared as parameter is zero in steady residuals and raises KeyError in dynamic ones. For declared parameters see C118."
  },
  {
   "property": "C123",
   "status": "partial",
   "theorems": [
    "C123_string_partial",
    "C123_example_partial",
    "C123_missing",
    "C123_relative",
    "C123_false",
    "C123_language"
   ],
   "note": "False: a Path always raises AttributeError. Holds for strings; examples are found only from the directory pynare is in."
  },
  {
   "property": "C124",
   "status": "proved",
   "theorems": [
    "C124_predictions",
    "C124_smallest",
    "C124_exists"
   ],
   "note": "The inverse from LAPACK is a parameter assumed exact where it succeeds. Random variables are vectors of any module, covariance any symmetric bilinear form; C124_exists shows that such processes exist."
  },
  {
   "property": "C125",
   "status": "partial",
   "theorems": [
    "C125_value_partial",
    "C125_ignores_data",
    "C125_false"
   ],
   "note": "False: what is returned is the sum of the logarithms of determinants; the numbers in the data never matter."
  },
  {
   "property": "C126",
   "status": "partial",
   "theorems": [
    "C126_filter",
    "C126_loglike",
    "C126_made",
    "C126_false"
   ],
   "note": "False: filter() reads an attribute that is never set, and loglike() raises NotImplementedError for all names of models but one and otherwise ends without a return statement."
  },
  {
   "property": "C127",
   "status": "partial",
   "theorems": [
    "C127_contains",
    "C127_refused",
    "C127_bounds",
    "C127_steady_partial",
    "C127_observation_partial",
    "C127_false",
    "C127_bounds_false"
   ],
   "note": "False: local variables are lost (zero in steady residuals, KeyError in dynamic ones), and missing boundary values become nan. Proved for models without local variables."
  },
  {
   "property": "C128",
   "status": "proved",
   "theorems": [
    "C128_moments",
    "C128_variance",
    "C128_corr",
    "C128_decomp"
   ],
   "note": "Numbers are those of an ordered field; names are single words."
  },
  {
   "property": "C129",
   "status": "partial",
   "theorems": [
    "C129_lag_partial",
    "C129_false"
   ],
   "note": "False: the column with heading p = i shows lag i + 1, and the title says autocovariance."
  },
  {
   "property": "C13",
   "status": "partial",
   "theorems": [
    "C13_leftover_ignored",
    "C13_whole_partial"
   ],
   "note": "False: leftover tokens are ignored (proved for every leftover). Holds for sequences that are visibly one expression."
  },
  {
   "property": "C130",
   "status": "partial",
   "theorems": [
    "C130_iff_partial",
    "C130_calib_partial",
    "C130_moments_partial",
    "C130_false"
   ],
   "note": "False: a summary fails unless some parameter, some covariance of shocks and some finite part of an eigenvalue differ from zero. Proved: exactly then it can be printed."
  },
  {
   "property": "C131",
   "status": "partial",
   "theorems": [
    "C131_list_partial",
    "C131_all",
    "C131_calib",
    "C131_unknown",
    "C131_false"
   ],
   "note": "False: a name is taken letter by letter, and an iterator is used up by the first print. Proved for lists."
  },
  {
   "property": "C132",
   "status": "partial",
   "theorems": [
    "C132_sections_partial",
    "C132_statistics_partial",
    "C132_unknown",
    "C132_false"
   ],
   "note": "False: features from an iterator are used up by the check, and nothing is shown. Proved for lists, single names and the default."
  },
  {
   "property": "C133",
   "status": "partial",
   "theorems": [
    "C133_keywords_partial",
    "C133_unknown",
    "C133_positional",
    "C133_false"
   ],
   "note": "False: no argument can be given by position, since the model is bound by keyword to the first parameter. Proved for keywords."
  },
  {
   "property": "C134",
   "status": "partial",
   "theorems": [
    "C134_moments_partial",
    "C134_corr_partial",
    "C134_decomp_partial",
    "C134_stoch_partial",
    "C134_false"
   ],
   "note": "False: columns are too narrow for small numbers. Proved if some number exceeds 1/100 (covariances of shocks: none negative, some at least one)."
  },
  {
   "property": "C135",
   "status": "proved",
   "theorems": [
    "C135_variables",
    "C135_eigen",
    "C135_stoch"
   ],
   "note": ""
  },
  {
   "property": "C136",
   "status": "partial",
   "theorems": [
    "C136_one_partial",
    "C136_two_partial",
    "C136_false"
   ],
   "note": "False: at the next date the same horizon reaches one period further, where the constraint may bind. Proved if the last search ends in the reference regime in the last two periods and nothing binds on the expected path in the periods that come into view."
  },
  {
   "property": "C137",
   "status": "partial",
   "theorems": [
    "C137_one_partial",
    "C137_two_partial",
    "C137_false"
   ],
   "note": "False for the same reason. Proved if on no path looked at a constraint binds from the last period of the shorter horizon on."
  },
  {
   "property": "C138",
   "status": "partial",
   "theorems": [
    "C138_slack_partial",
    "C138_false"
   ],
   "note": "False: if the first constraint binds up to the end of the horizon, the second alternative regime is used for the last period instead of the first. Proved if on no path looked at the first constraint binds in the last two periods."
  },
  {
   "property": "C139",
   "status": "partial",
   "theorems": [
    "C139_order_partial",
    "C139_false"
   ],
   "note": "False for the same reason. Proved if on no path looked at a constraint binds in the last two periods."
  },
  {
   "property": "C14",
   "status": "partial",
   "theorems": [
    "C14_false",
    "C14_sign_takes_product",
    "C14_last_factor_partial"
   ],
   "note": "False: a sign applies to the whole product that follows. Holds when the operand is followed by neither * nor /."
  },
  {
   "property": "C140",
   "status": "partial",
   "theorems": [
    "C140_failed",
    "C140_kept",
    "C140_again_partial",
    "C140_one_partial",
    "C140_two_partial",
    "C140_false"
   ],
   "note": "False: the shocks kept are padded with zeros, so C136 applies; with fewer periods the second call raises IndexError. Proved for as many shocks as periods and under the conditions of C136."
  },
  {
   "property": "C141",
   "status": "partial",
   "theorems": [
    "C141_enough_partial",
    "C141_errors",
    "C141_ignored",
    "C141_false"
   ],
   "note": "False: regimes left over are ignored silently."
  },
  {
   "property": "C142",
   "status": "partial",
   "theorems": [
    "C142_dies_out_partial",
    "C142_false"
   ],
   "note": "False: solving a model does not check it, so a model with an eigenvalue of -2 is solved as if it were stable and its responses explode; and one with an eigenvalue of one passes the check but its responses stay. Proved with exact linear algebra for models that pass the check and have no eigenvalue of modulus one."
  },
  {
   "property": "C143",
   "status": "partial",
   "theorems": [
    "C143_returns_partial",
    "C143_limit_partial",
    "C142_false"
   ],
   "note": "False for the same reason. Proved under the same conditions."
  },
  {
   "property": "C144",
   "status": "partial",
   "theorems": [
    "C144_bounded_partial",
    "C142_false"
   ],
   "note": "False for the same reason. Proved under the same conditions."
  },
  {
   "property": "C145",
   "status": "partial",
   "theorems": [
    "C145_false",
    "C145_unique_partial",
    "C145_exists_partial"
   ],
   "note": "False for eigenvalues of modulus one: a model with the eigenvalues -2 and 1 passes the check, and its responses explode. Proved with exact linear algebra for models that pass the check and have no eigenvalue of modulus one, which the check does not exclude. Both directions: the path of the policy functions is bounded and solves the equations."
  },
  {
   "property": "C146",
   "status": "partial",
   "theorems": [
    "C145_false",
    "C146_moments_partial",
    "C146_checked"
   ],
   "note": "False for eigenvalues of modulus one: for a model with the eigenvalues -2 and 1, which passes the check, a negative variance is reported. Proved with exact linear algebra if there is no eigenvalue of modulus one. Discharges the assumption of stability that C62 to C65 make."
  },
  {
   "property": "C147",
   "status": "partial",
   "theorems": [
    "C147_local_partial",
    "C147_false"
   ],
   "note": "False: second-order paths are not pruned, so that x = x(-1)/2 + x(-1)^2 + e explodes from 2 although its eigenvalue is one half. Proved: there is a neighbourhood of the steady state, and bounds on shocks and on the correction for risk, within which all simulations, however long, stay within K(r^k X + E). For several states and several shocks, see C74."
  },
  {
   "property": "C148",
   "status": "partial",
   "theorems": [
    "C148_check_iff_partial",
    "C148_false"
   ],
   "note": "False: eigenvalues below -1 are counted as explosive but not where the state space is cut, so the rank condition is checked for the wrong block; a model in which a state follows x = -2*x(-1) is accepted, and one with exactly one bounded path from everywhere is refused. Proved as an equivalence, with exact linear algebra (the rank included), for models with a forward-looking variable, without eigenvalues of modulus one, and whose explosive eigenvalues have real parts above one."
  },
  {
   "property": "C149",
   "status": "partial",
   "theorems": [
    "C149_policy_partial",
    "C149_coefficients_partial"
   ],
   "note": "Proved for models that pass the check and have no eigenvalue of modulus one, with exact differentiation and linear algebra, whose equations are of the form the residual functions read as written (C33) with lags and leads of one period. Without those conditions the two versions may have different solutions."
  },
  {
   "property": "C15",
   "status": "proved",
   "theorems": [
    "C15_exponent_spelling",
    "C15_caret_refused"
   ],
   "note": "Texts with quoted strings or with a star directly followed by a star or an exponent sign are not expressions and are excluded."
  },
  {
   "property": "C150",
   "status": "partial",
   "theorems": [
    "C150_moments_partial"
   ],
   "note": "Under the conditions of C149, for symmetric covariances of the shocks."
  },
  {
   "property": "C151",
   "status": "partial",
   "theorems": [
    "C151_simulation_partial",
    "C151_impulse_partial",
    "C151_false"
   ],
   "note": "False for correlated shocks: draws are multiplied by the upper Cholesky factor, so the response to a shock depends on which shocks are declared before it. Proved under the conditions of C149 for first-order solutions, when the shocks are uncorrelated or their order is unchanged."
  },
  {
   "property": "C152",
   "status": "partial",
   "theorems": [
    "C152_check_partial"
   ],
   "note": "Under the conditions of C148 in both versions (exact eigenvalues and ranks, a forward-looking variable, no eigenvalue of modulus one, explosive eigenvalues with real part above one), with equations of the form of C33. The check itself can err with negative eigenvalues (C148)."
  },
  {
   "property": "C153",
   "status": "partial",
   "theorems": [
    "C153_unique_partial",
    "C153_risk_partial"
   ],
   "note": "For models that pass the check, have no eigenvalue of modulus one and can be solved to second order (C87), with exact linear algebra; for the constant, with symmetric covariances."
  },
  {
   "property": "C154",
   "status": "partial",
   "theorems": [
    "C154_second_partial",
    "C154_risk_partial",
    "C154_simulation_partial"
   ],
   "note": "For models that pass the check, have no eigenvalue of modulus one and can be solved to second order (C87), in both orders, with exact derivatives and linear algebra. For simulations: at least two states and two shocks (C74: with one of either, simulations of several variables fail)."
  },
  {
   "property": "C155",
   "status": "proved",
   "theorems": [
    "C155_one",
    "C155_default",
    "C155_unknown",
    "C155_joint"
   ],
   "note": "The names of the shocks are distinct. The sum over several shocks is for first-order solutions."
  },
  {
   "property": "C156",
   "status": "proved",
   "theorems": [
    "C156_sum_of_responses"
   ],
   "note": "The names of the shocks are distinct; the draws are given as an array with one column for each shock."
  },
  {
   "property": "C157",
   "status": "proved",
   "theorems": [
    "C157_covariances",
    "C157_autocovariances"
   ],
   "note": "Linear algebra exact. Stable means that the states return to the steady state without shocks."
  },
  {
   "property": "C158",
   "status": "proved",
   "theorems": [
    "C158_shares"
   ],
   "note": "Linear algebra exact; both factorisations of the covariance matrix are triangular with a positive diagonal."
  },
  {
   "property": "C159",
   "status": "partial",
   "theorems": [
    "C159_first_order_partial",
    "C159_found_partial"
   ],
   "note": "Libraries exact (linear algebra, first derivatives, and for the second theorem the minimiser). Files whose parameters and equations are plain as in C118, in which every variable occurs in the current period and there are as many equations as variables; the decomposition is not cut through a pair of complex conjugates. Missing: files outside these guards."
  },
  {
   "property": "C16",
   "status": "partial",
   "theorems": [
    "C16_dead_token_hangs",
    "C16_no_model_block_hangs",
    "C16_terminates_partial",
    "C16_only_preamble_hangs",
    "C16_expressions_terminate"
   ],
   "note": "False: any token that starts no statement makes the preamble loop for ever. Terminates when every statement position before the model block holds a starting token; nothing else in the parser of model files can loop."
  },
  {
   "property": "C160",
   "status": "partial",
   "theorems": [
    "C160_second_order_partial",
    "C160_real_partial"
   ],
   "note": "As C159, with the generalised Schur decomposition exact and, over fields other than the real numbers, second derivatives exact at the steady state. Missing: files outside these guards. The correction for risk is in C163."
  },
  {
   "property": "C161",
   "status": "partial",
   "theorems": [
    "C161_reordered_partial"
   ],
   "note": "Libraries exact (linear algebra, first derivatives and the minimiser; they may differ between the two runs). Files whose parameters and equations are plain as in C118, well posed as in C159, with one steady state; both state spaces pass the check and have no eigenvalue of modulus one. Missing: files outside these guards, among them those with several steady states, where the minimiser may find different ones."
  },
  {
   "property": "C162",
   "status": "proved",
   "theorems": [
    "C162_risk_accuracy",
    "C162_scale",
    "C162_risk_solved"
   ],
   "note": "For exact linear algebra and distributions on finitely many points. A statement about the functions of the equations, not about their derivatives."
  },
  {
   "property": "C163",
   "status": "partial",
   "theorems": [
    "C163_risk_text_partial",
    "C163_real_partial"
   ],
   "note": "Guards of C160, and a plain shocks block as in C24: one statement per variance, each shock first in at most one pair. Distributions on finitely many points. Missing: files outside these guards."
  },
  {
   "property": "C164",
   "status": "partial",
   "theorems": [
    "C164_iff_partial"
   ],
   "note": "Linear algebra exact, complete for regular arrays and for the arrays to be decomposed; no eigenvalue of modulus one, and finite ones outside the unit circle have a real part above one; at least one shock. Missing: models with eigenvalues outside these guards."
  },
  {
   "property": "C165",
   "status": "partial",
   "theorems": [
    "C165_solved_iff_partial"
   ],
   "note": "Files with plain equations (C118); linear algebra, differentiation and minimisation exact, and answering where there is an answer; no eigenvalue of modulus one, and finite ones outside the unit circle have a real part above one. Missing: models with eigenvalues outside these guards."
  },
  {
   "property": "C166",
   "status": "partial",
   "theorems": [
    "C166_solved_iff_partial"
   ],
   "note": "Guards of C165; the decomposition routine for the Sylvester equation answers and is exact. Missing: models with eigenvalues outside these guards."
  },
  {
   "property": "C167",
   "status": "partial",
   "theorems": [
    "C167_implied_partial",
    "C167_rewritten_partial",
    "C167_exchanged_partial"
   ],
   "note": "Guards of C161: exact libraries, one steady state, models that pass the check without eigenvalue of modulus one. Missing: models with several steady states, where the one reported depends on the minimiser."
  },
  {
   "property": "C168",
   "status": "partial",
   "theorems": [
    "C168_reordered_partial"
   ],
   "note": "Guards of C154 and C118: exact libraries, equations differentiated twice exactly, shocks blocks the covariance matrix can represent, models that pass the check without eigenvalue of modulus one. Missing: that both files report the same steady state, which is assumed (C161 derives it when there is only one)."
  },
  {
   "property": "C169",
   "status": "partial",
   "theorems": [
    "C169_rewritten_partial",
    "C169_risk_differs"
   ],
   "note": "Guards as for C168. The equality is proved for the second-order terms of states and shocks; that it fails for the constant for risk is proved with two files that meet every hypothesis."
  },
  {
   "property": "C17",
   "status": "proved",
   "theorems": [
    "C17_eval_depends_on_names"
   ],
   "note": ""
  },
  {
   "property": "C170",
   "status": "partial",
   "theorems": [
    "C170_combined_partial",
    "C170_exchanged_partial"
   ],
   "note": "Guards as for C168. C170_exchanged_partial is the case of exchanged sides; a pair of files with a correction for risk that is not zero meets all hypotheses (Props/CombinedCase)."
  },
  {
   "property": "C171",
   "status": "partial",
   "theorems": [
    "C171_printed",
    "C171_lines",
    "C171_tokens_partial",
    "C171_false",
    "C171_file",
    "C171_added"
   ],
   "note": "Complete but for the claim about tokens, which is false for a comparison (cut in two) and for a comment before the equals sign (which swallows the rest of the line): C171_false. C171_file: str(model.exprs) raises ValueError for every model read from a file."
  },
  {
   "property": "C172",
   "status": "proved",
   "theorems": [
    "C172_made",
    "C172_copied",
    "C172_history",
    "C172_results",
    "C172_solved",
    "C172_false"
   ],
   "note": "The change of names must keep apart the names with the suffixes m1 and p1 the code glues to them, too: C172_false shows that a model with a lagged variable x cannot have a variable xm1. Equations are given as trees, or as texts for which the parser returns the renamed trees."
  },
  {
   "property": "C173",
   "status": "partial",
   "theorems": [
    "C173_raises",
    "C173_all",
    "C173_some",
    "C173_backwards",
    "C173_false"
   ],
   "note": "Complete for k that is None or not negative. False for negative k, which is not refused: all but the last eigenvalues are returned (C173_false). Magnitudes that are not numbers are not modelled."
  },
  {
   "property": "C174",
   "status": "partial",
   "theorems": [
    "C174_enlarged_partial"
   ],
   "note": "For files as in C161, each with exactly one steady state, the same one by name, whose state spaces pass the check and have no eigenvalue of modulus one. That the larger file is solved at all is assumed, not derived: the added equations may make it unsolvable."
  },
  {
   "property": "C175",
   "status": "partial",
   "theorems": [
    "C175_restated_partial",
    "C175_same_partial",
    "C175_written_partial",
    "C175_logs_partial"
   ],
   "note": "For files as in C161, each with exactly one steady state, whose state spaces pass the check and have no eigenvalue of modulus one; that both files are solved at all is assumed. C175_logs_partial is the case of the exponential function over the reals; the concrete example is for C175_written_partial over the rationals with 0 - x - x*x*x in the place of x."
  },
  {
   "property": "C176",
   "status": "proved",
   "theorems": [
    "C176_created",
    "C176_contains",
    "C176_select",
    "C176_empty"
   ],
   "note": "One-dimensional collections. np.concatenate of collections is not covered (see the note about add_endog)."
  },
  {
   "property": "C177",
   "status": "partial",
   "theorems": [
    "C177_endog",
    "C177_bound",
    "C177_collection",
    "C177_stoch_false",
    "C177_stoch_partial"
   ],
   "note": "Holds of endogenous variables and collections. False of shocks (C177_stoch_false: correlation zero, both correlation and covariance, or no second shock); C177_stoch_partial under the exact guard."
  },
  {
   "property": "C178",
   "status": "partial",
   "theorems": [
    "C178_simulation_partial",
    "C178_impulse_partial"
   ],
   "note": "Partial as C175 (one steady state, determinate and without unit eigenvalues) and as C151: the shocks are uncorrelated or declared in the same order. First-order solutions."
  },
  {
   "property": "C179",
   "status": "proved",
   "theorems": [
    "C179_start",
    "C179_kept"
   ],
   "note": "The minimiser is a parameter. StaysAtZero (a search by gradients does not leave a point where a nonnegative objective is zero) is what C179_kept assumes of it; C179_start assumes nothing."
  },
  {
   "property": "C18",
   "status": "proved",
   "theorems": [
    "C18_eval_correct",
    "C18_eval_fails_iff"
   ],
   "note": ""
  },
  {
   "property": "C180",
   "status": "partial",
   "theorems": [
    "C180_covariance_partial",
    "C180_correlation_partial"
   ],
   "note": "Partial as C175: one steady state, determinate and without unit eigenvalues, both files solved; and the solver for Lyapunov equations exact. First-order solutions. Correlations: where the square roots of the variances are exact."
  },
  {
   "property": "C181",
   "status": "proved",
   "theorems": [
    "C181_space",
    "C181_first_order",
    "C181_second_order"
   ],
   "note": "The part about the correction for risk assumes that the solver for linear systems is exact."
  },
  {
   "property": "C182",
   "status": "proved",
   "theorems": [
    "C182_covariances",
    "C182_autocovariances",
    "C182_multiplied",
    "C182_correlations",
    "C182_autocorrelations"
   ],
   "note": "Assumes that the solver of the Lyapunov equation is exact and, for correlations, that the square roots of the variances are."
  },
  {
   "property": "C183",
   "status": "proved",
   "theorems": [
    "C183_prefix",
    "C183_prefix_autocorrelations",
    "C183_dies_out",
    "C183_autocorrelations_die_out"
   ],
   "note": "Dying out assumes that the solver of the Lyapunov equation is exact."
  },
  {
   "property": "C184",
   "status": "proved",
   "theorems": [
    "C184_simulations",
    "C184_impulse"
   ],
   "note": "Assumes that the factorisation of the covariance matrix is exact. That the policy functions do not change with the shocks block is C181."
  },
  {
   "property": "C185",
   "status": "partial",
   "theorems": [
    "C185_matrix_partial",
    "C185_impulse_partial",
    "C185_covariances_partial"
   ],
   "note": "Partial as C24: only for plain shocks blocks, with one statement about the variance of a shock, and one about a pair for each shock that is named first. What other blocks do is in the notes about C24. The roots taken for correlations, the factorisation, and the solution of the Lyapunov equation are assumed to be exact."
  },
  {
   "property": "C186",
   "status": "partial",
   "theorems": [
    "C186_frame",
    "C186_array",
    "C186_series",
    "C186_vector",
    "C186_accepted_partial",
    "C186_each_once",
    "C186_false"
   ],
   "note": "Does not hold of frames with repeated labels (C186_false): two columns for one observed variable and none for another are accepted. Holds of frames without repeated labels, of arrays and of series (C186_each_once, C186_array, C186_series). Arrays of one dimension are always refused, with an IndexError, and series without a name with a NameError. Which column is used for which variable is C66."
  },
  {
   "property": "C187",
   "status": "partial",
   "theorems": [
    "C187_shares_partial",
    "C187_false"
   ],
   "note": "Does not hold as it is (C187_false): 1e-12 is added to the variances before they are decomposed, whatever their size; a shock without variance has a share, which changes with the size of all shocks. Holds if that number is multiplied too (C187_shares_partial), so the decomposition of shocks that are k times as large is the one of the first shocks with 1e-12 divided by k squared."
  },
  {
   "property": "C188",
   "status": "proved",
   "theorems": [
    "C188_sums",
    "C188_none"
   ],
   "note": "With exact linear algebra. Nothing is assumed about eigenvalues or about how the covariances are stated. In the examples the correction for risk is not zero."
  },
  {
   "property": "C189",
   "status": "proved",
   "theorems": [
    "C189_unsolved"
   ],
   "note": "The message is spelled out in the statement. The example has a cycle and a parameter that depends on it."
  },
  {
   "property": "C19",
   "status": "partial",
   "theorems": [
    "C19_substitution_partial",
    "C19_substitution_defined",
    "C19_bare_name_not_substituted"
   ],
   "note": "The substituter leaves an expression that is a single name unchanged (refuted by witness); proved for every other expression."
  },
  {
   "property": "C190",
   "status": "partial",
   "theorems": [
    "C190_order_partial",
    "C190_check_partial",
    "C190_static",
    "C190_false"
   ],
   "note": "Holds for the conditions of Blanchard and Kahn. False for static variables: the arguments are shifted by one place, so that the message states the number of static variables as the rank and None as their number (C190_static, C190_false)."
  },
  {
   "property": "C191",
   "status": "proved",
   "theorems": [
    "C191_split",
    "C191_shape",
    "C191_squeeze",
    "C191_joint",
    "C191_lines"
   ],
   "note": "pyplot is modelled by the shape of the axes it returns. Numbers of rows and columns that are no natural numbers are refused."
  },
  {
   "property": "C192",
   "status": "partial",
   "theorems": [
    "C192_own_partial",
    "C192_last",
    "C192_false"
   ],
   "note": "False for reserved words that occur again (witness): their tokens are one object each, and the message states the position of the last occurrence (C192_last). Holds for all other tokens, and for last occurrences, in texts whose block comments are handled (C10). Which token is not expected is not part of the statement."
  },
  {
   "property": "C20",
   "status": "partial",
   "theorems": [
    "C20_accepts_iff",
    "C20_accepts_parsed_iff",
    "C20_undeclared_accepted",
    "C20_names_partial"
   ],
   "note": "Acceptance is characterised exactly; false as stated, because a name that is only assigned, never declared, is accepted in later assignments and elsewhere (witness)."
  },
  {
   "property": "C21",
   "status": "proved",
   "theorems": [
    "C21_declared_once"
   ],
   "note": ""
  },
  {
   "property": "C22",
   "status": "partial",
   "theorems": [
    "C22_no_shocks_block_rejected",
    "C22_shocks_omitted_partial",
    "C22_omitted_variance_one"
   ],
   "note": "False: a file without shocks block is rejected (for every file). A shock omitted from a present block is accepted and gets variance one."
  },
  {
   "property": "C23",
   "status": "partial",
   "theorems": [
    "C23_initial_terminal_partial",
    "C23_histval_needs_endval",
    "C23_histval_is_endval"
   ],
   "note": "Initial and terminal values are right for every combination of blocks. False for historical values: a histval block raises unless there is an endval block, whose values are then recorded instead."
  },
  {
   "property": "C24",
   "status": "partial",
   "theorems": [
    "C24_second_pair_replaces_first",
    "C24_pair_without_variance",
    "C24_covariance_hides_correlation",
    "C24_covariance_partial",
    "C24_correlation_recovered_partial",
    "C24_model_file_partial"
   ],
   "note": "False: a shock keeps a single partner, a shock first in a pair loses the default variance (TypeError with corr), and cov/corr with the same first shock get mixed (witnesses). Proved, every entry of the matrix, for blocks where each shock is first in at most one pair and then has its variance stated."
  },
  {
   "property": "C25",
   "status": "partial",
   "theorems": [
    "C25_last_assignment_false",
    "C25_execution_partial"
   ],
   "note": "False when a name used by a parameter is reassigned later, or is not a declared parameter (witnesses). Proved when the last assignment of each parameter uses only declared parameters that are not assigned again below it."
  },
  {
   "property": "C26",
   "status": "proved",
   "theorems": [
    "C26_residuals",
    "C26_statement"
   ],
   "note": ""
  },
  {
   "property": "C27",
   "status": "proved",
   "theorems": [
    "C27_incidence_exact"
   ],
   "note": ""
  },
  {
   "property": "C28",
   "status": "proved",
   "theorems": [
    "C28_numbering",
    "C28_model",
    "C28_shock_columns"
   ],
   "note": ""
  },
  {
   "property": "C29",
   "status": "partial",
   "theorems": [
    "C29_longer_lags_accepted",
    "C29_second_lag_read_as_first",
    "C29_rejected_iff_partial"
   ],
   "note": "False: lags of 2, 3, 4 are recorded as lead, current, lag; a variable occurring only with a lead above 1 or a lag above 4 is recorded as absent. What is rejected is characterised exactly."
  },
  {
   "property": "C30",
   "status": "partial",
   "theorems": [
    "C30_listed_twice",
    "C30_permutation_iff_partial",
    "C30_inverse"
   ],
   "note": "False: a variable with lag and lead but no current occurrence is listed twice. Permutation if and only if there is no such variable; then the other table is its inverse."
  },
  {
   "property": "C31",
   "status": "partial",
   "theorems": [
    "C31_partition",
    "C31_sizes",
    "C31_dr_order_groups_partial"
   ],
   "note": "Partition and group sizes proved for every table; the order of groups under the guard of C30 (false otherwise, see C30_listed_twice); the reported number of static variables is C32."
  },
  {
   "property": "C32",
   "status": "partial",
   "theorems": [
    "C32_off_by_one",
    "C32_static_count_partial",
    "C32_static_count_with_lag_partial"
   ],
   "note": "False: one too small when a static variable has column 0, which needs a model without lags. Exact description proved; right for every model with a lag."
  },
  {
   "property": "C33",
   "status": "partial",
   "theorems": [
    "C33_dynamic_residual_partial",
    "C33_residual_vector_partial",
    "C33_zero_offset_reads_lag",
    "C33_determ_raises"
   ],
   "note": "False for x(0), which is read as the lag, and for varexo_det variables, which raise KeyError. Proved (exactly when the function returns a value, and which) for every equation left = right whose names are parameters, endogenous variables at periods -1, 0, 1, or shocks."
  },
  {
   "property": "C34",
   "status": "proved",
   "theorems": [
    "C34_steady_residual",
    "C34_construction"
   ],
   "note": "Every equation with an equals sign. Undeclared names and varexo_det variables are read as zero, too."
  },
  {
   "property": "C35",
   "status": "partial",
   "theorems": [
    "C35_agree_at_rest_partial",
    "C35_determ_disagrees"
   ],
   "note": "False when a varexo_det variable occurs (the dynamic residual raises KeyError). Equality, errors included, under the name conditions of C33."
  },
  {
   "property": "C36",
   "status": "partial",
   "theorems": [
    "C36_construction",
    "C36_distinct_partial",
    "C36_clash_refused",
    "C36_foreign_name_confused"
   ],
   "note": "Among the arguments a clash raises ValueError, so they are never confused. False for a varexo_det or undeclared name spelled like a lag or lead, which is read as that lag or lead."
  },
  {
   "property": "C37",
   "status": "proved",
   "theorems": [
    "C37_sigma_symmetric"
   ],
   "note": ""
  },
  {
   "property": "C38",
   "status": "partial",
   "theorems": [
    "C38_indexes_partial",
    "C38_steady_partial",
    "C38_dynamic_partial",
    "C38_statespace_partial",
    "C38_sigma_partial",
    "C38_solve_partial",
    "C38_solution_frozen",
    "C38_solution_stale",
    "C38_stale_after_failed_update",
    "C38_stale_after_failed_edit"
   ],
   "note": "False: the solution property is never invalidated; an update that raises has already cleared the flag; an edit that raises half way has changed the definition without setting it. Proved for the table, both kinds of residual functions, the state space, the covariance matrix and solve() after every history in which nothing raised."
  },
  {
   "property": "C39",
   "status": "partial",
   "theorems": [
    "C39_copy_partial",
    "C39_copy_definition_partial",
    "C39_nested_parameters",
    "C39_local_parameters_lost"
   ],
   "note": "False with local parameters, which copy() drops. Proved for models without them after every history in which nothing raised, with distinct names: the copy is the model itself without the cached covariance matrix and solution."
  },
  {
   "property": "C40",
   "status": "partial",
   "theorems": [
    "C40_lookup_one",
    "C40_lookup_partial",
    "C40_repeated_name"
   ],
   "note": "Exact for distinct names (KeyError exactly for unknown ones). False for repeated names, which add_endog accepts: ValueError for a variable that exists."
  },
  {
   "property": "C41",
   "status": "partial",
   "theorems": [
    "C41_edit",
    "C41_aligned_partial",
    "C41_function_of_text",
    "C41_generator_loses_texts"
   ],
   "note": "False for a container made from a generator (its texts are lost). Proved for every history of edits of a container made from a list."
  },
  {
   "property": "C42",
   "status": "partial",
   "theorems": [
    "C42_length_partial",
    "C42_length_wrong"
   ],
   "note": "False for a dictionary of two or more equations; proved to hold exactly for sequences and one-entry dictionaries."
  },
  {
   "property": "C43",
   "status": "partial",
   "theorems": [
    "C43_false",
    "C43_dynamic_block_partial"
   ],
   "note": "False if the decomposition is cut through a pair of complex conjugates (witness). Proved for every pencil, exact linear algebra and every vector of states, if the decomposition was not cut through a pair of complex conjugates (which the code does when no eigenvalue exceeds one)."
  },
  {
   "property": "C44",
   "status": "proved",
   "theorems": [
    "C44_static"
   ],
   "note": "For all rotated jacobians and all responses of the dynamic variables; every variable occurs in the current period and the reported number of static variables is right (C32)."
  },
  {
   "property": "C45",
   "status": "proved",
   "theorems": [
    "C45_shocks"
   ],
   "note": "For all jacobians, responses and shock vectors; every variable occurs in the current period."
  },
  {
   "property": "C46",
   "status": "partial",
   "theorems": [
    "C46_false",
    "C46_checked_partial",
    "C46_policy_partial",
    "C46_simulated_partial"
   ],
   "note": "False for models that fail the check of the state space, which solve does not look at (witness whose eigenvalues are complex). Holds for all models that pass the check and have no eigenvalue of modulus one. Proved for all models with as many equations as variables in which every variable occurs in the current period, all shock sequences and all periods, with exact linear algebra, unless the decomposition was cut through a pair of complex conjugates."
  },
  {
   "property": "C47",
   "status": "proved",
   "theorems": [
    "C47_solves",
    "C47_shapes",
    "C47_unique",
    "C47_iff"
   ],
   "note": "The only solution, and there is an answer exactly if the homogeneous equation has only the zero solution (C47_iff, for a library that solves every regular system). All sizes and all block patterns; decompositions and linear systems are taken to be solved exactly whenever they return."
  },
  {
   "property": "C48",
   "status": "proved",
   "theorems": [
    "C48_shingle",
    "C48_overlap",
    "C48_width"
   ],
   "note": "All arrays and overlaps up to the rows of the second array; columns must agree."
  },
  {
   "property": "C49",
   "status": "proved",
   "theorems": [
    "C49_first_row",
    "C49_follows_policy"
   ],
   "note": "All tables whose decision-rule order lists every variable once (C29), all arrays, shocks and periods; a single row of responses to several shocks is excluded because it is never simulated (C75)."
  },
  {
   "property": "C50",
   "status": "proved",
   "theorems": [
    "C50_superposition"
   ],
   "note": "All linear combinations of two simulations."
  },
  {
   "property": "C51",
   "status": "proved",
   "theorems": [
    "C51_rest_point"
   ],
   "note": ""
  },
  {
   "property": "C52",
   "status": "proved",
   "theorems": [
    "C52_causal_first",
    "C52_causal_second",
    "C52_last_shock_unused"
   ],
   "note": "First and second order."
  },
  {
   "property": "C53",
   "status": "partial",
   "theorems": [
    "C53_step_partial",
    "C53_false"
   ],
   "note": "False: the arrays stored are halved already and are halved again, the constant too. The exact step is proved for several states and shocks."
  },
  {
   "property": "C54",
   "status": "proved",
   "theorems": [
    "C54_covariance"
   ],
   "note": "Random numbers as a finite probability space with uncorrelated entries of mean zero and variance one; the factorisation is taken to be exact."
  },
  {
   "property": "C55",
   "status": "partial",
   "theorems": [
    "C55_first_row_zero",
    "C55_response_partial",
    "C55_scales",
    "C55_impact_late"
   ],
   "note": "False as stated: the first row of every response is zero; the impact is in the second row, and it is the impact of a row of the Cholesky factor, so correlated shocks move together. Scaling is proved in full."
  },
  {
   "property": "C56",
   "status": "proved",
   "theorems": [
    "C56_drop"
   ],
   "note": ""
  },
  {
   "property": "C57",
   "status": "partial",
   "theorems": [
    "C57_located_partial",
    "C57_false"
   ],
   "note": "False for a regime that begins in the last period; all other positions are reported exactly."
  },
  {
   "property": "C58",
   "status": "partial",
   "theorems": [
    "C58_consistent",
    "C58_one_partial",
    "C58_two_consistent",
    "C58_two_partial",
    "C58_rows",
    "C58_false"
   ],
   "note": "The test of the loop is proved for all executions. Whether the path was computed with the equations of the accepted regimes holds only if the accepted guess ends in the reference regime (witness for the rest)."
  },
  {
   "property": "C59",
   "status": "proved",
   "theorems": [
    "C59_one",
    "C59_two"
   ],
   "note": "For one and for two constraints."
  },
  {
   "property": "C60",
   "status": "partial",
   "theorems": [
    "C60_one_partial",
    "C60_two_partial",
    "C58_false"
   ],
   "note": "Proved when the guess ends in the reference regime; false otherwise (only a warning is given)."
  },
  {
   "property": "C61",
   "status": "partial",
   "theorems": [
    "C61_no_effect"
   ],
   "note": "False: the option has no effect for any input."
  },
  {
   "property": "C62",
   "status": "proved",
   "theorems": [
    "C62_stationary",
    "C62_exists",
    "C62_limit",
    "C62_only",
    "C62_psd",
    "C62_states_psd",
    "C62_variances"
   ],
   "note": "About every process that follows the policy functions; the Lyapunov solver is taken to be exact whenever it returns. Models with one variable are refused, see C81."
  },
  {
   "property": "C63",
   "status": "proved",
   "theorems": [
    "C63_unit",
    "C63_defined",
    "C63_bounded",
    "C63_symm",
    "C63_value"
   ],
   "note": "Square roots of the variances are taken to be exact. Variables without variance have no correlations."
  },
  {
   "property": "C64",
   "status": "partial",
   "theorems": [
    "C64_lag_partial",
    "C64_false"
   ],
   "note": "False: entry i of the result is the autocovariance at lag i+1. The exact lag is proved."
  },
  {
   "property": "C65",
   "status": "proved",
   "theorems": [
    "C65_shares",
    "C65_meaning",
    "C65_uncorrelated"
   ],
   "note": "The factorisation is taken to be exact whenever it returns. Covariances are those with the small number added that the code adds."
  },
  {
   "property": "C66",
   "status": "partial",
   "theorems": [
    "C66_iff_partial",
    "C66_same_order_partial",
    "C66_false"
   ],
   "note": "False: the columns are permuted with the inverse of the permutation needed. The exact condition (the permutation is its own inverse) is proved."
  },
  {
   "property": "C67",
   "status": "proved",
   "theorems": [
    "C67_cells",
    "C67_empty",
    "C67_square"
   ],
   "note": "For every positive number of series; also the square layout."
  },
  {
   "property": "C68",
   "status": "partial",
   "theorems": [
    "C68_bilinear_partial",
    "C68_single_is_column",
    "C68_matrix"
   ],
   "note": "False in shape for one column: a two-dimensional column comes back instead of a vector. Proved otherwise."
  },
  {
   "property": "C69",
   "status": "proved",
   "theorems": [
    "C69_blocks"
   ],
   "note": ""
  },
  {
   "property": "C70",
   "status": "partial",
   "theorems": [
    "C70_separate_partial",
    "C70_shared",
    "C70_default_shared"
   ],
   "note": "False for models built from the same dictionary, in particular for models built without params (mutable default argument). Proved for different dictionaries."
  },
  {
   "property": "C71",
   "status": "partial",
   "theorems": [
    "C71_alternative_partial",
    "C71_alternative_refreshed",
    "C71_local_parameters_lost"
   ],
   "note": "False with local parameters (dropped by copy). Proved otherwise, under the conditions of C39."
  },
  {
   "property": "C72",
   "status": "partial",
   "theorems": [
    "C72_determinate_partial",
    "C72_indeterminate_solved",
    "C72_determinate_refused"
   ],
   "note": "False: solve() never runs the check, and compares eigenvalues, not moduli, with one. Witnesses: a model without explosive eigenvalue is solved; a determinate model with eigenvalues 1/2, -2, 3 is refused. Proved if the moduli question does not arise, explosive eigenvalues are listed last and there is at least one."
  },
  {
   "property": "C73",
   "status": "partial",
   "theorems": [
    "C73_iff_partial",
    "C73_accepted_partial",
    "C73_refused",
    "C73_false"
   ],
   "note": "False: purely backward-looking, purely forward-looking and static models are always refused, and so are models whose states are two or more mixed variables. C73_iff_partial shows that these are the only ones: a model with exactly one bounded path is solved exactly if it has a variable with a lead and either one with a lag only or exactly one with both. Guards: at least one shock, and those of C148 (no eigenvalue of modulus one; explosive ones have a real part above one). The library is assumed to answer whenever there is an answer."
  },
  {
   "property": "C74",
   "status": "partial",
   "theorems": [
    "C74_simulated_partial",
    "C74_false"
   ],
   "note": "False: ValueError for two or more variables with one state or one shock. Proved for two or more of both."
  },
  {
   "property": "C75",
   "status": "partial",
   "theorems": [
    "C75_simulated_partial",
    "C75_false"
   ],
   "note": "False: ValueError for one variable with several shocks. Proved otherwise."
  },
  {
   "property": "C76",
   "status": "partial",
   "theorems": [
    "C76_rules_partial",
    "C76_reference_partial",
    "C76_false"
   ],
   "note": "False when a state with a lead is declared before one without; proved otherwise, with the exact condition."
  },
  {
   "property": "C77",
   "status": "partial",
   "theorems": [
    "C77_accepted_partial",
    "C77_false"
   ],
   "note": "False: every solution with one state is refused."
  },
  {
   "property": "C78",
   "status": "partial",
   "theorems": [
    "C78_false",
    "C78_iff_partial"
   ],
   "note": "False: eight series are put into four rows of two. The exact condition is proved."
  },
  {
   "property": "C79",
   "status": "partial",
   "theorems": [
    "C79_false",
    "C79_grid_partial",
    "C79_vector_partial",
    "C79_named_partial",
    "C79_joint_partial"
   ],
   "note": "False: a single series raises AttributeError, and one-row or one-column layouts with too few cells drop series. Proved for all grids, for rows and columns with room (exact condition), for the named layouts with at least two series and for one set of axes."
  },
  {
   "property": "C80",
   "status": "partial",
   "theorems": [
    "C80_false",
    "C79_named_partial"
   ],
   "note": "False: 'row' raises ValueError. The other named layouts draw every series when there are at least two."
  },
  {
   "property": "C81",
   "status": "partial",
   "theorems": [
    "C81_partial",
    "C81_one_variable",
    "C81_false"
   ],
   "note": "False: every model with one variable is refused with IndexError. Proved for two or more variables."
  },
  {
   "property": "C82",
   "status": "partial",
   "theorems": [
    "C82_select",
    "C82_unknown_partial",
    "C82_false"
   ],
   "note": "False: with one shock names of shocks are not looked at. Selection is proved for all lists of names, refusal for the other cases."
  },
  {
   "property": "C83",
   "status": "proved",
   "theorems": [
    "C83_bounded"
   ],
   "note": "Solver and square roots as in C62 and C63."
  },
  {
   "property": "C84",
   "status": "partial",
   "theorems": [
    "C84_complete",
    "C84_text",
    "C84_sound_partial",
    "C84_unambiguous"
   ],
   "note": "Reading as written is proved without restriction. The converse excludes files with a function call directly after a closing parenthesis, where the expression parser drops tokens (C11_calls_dropped)."
  },
  {
   "property": "C85",
   "status": "proved",
   "theorems": [
    "C85_second_order",
    "so1_solved",
    "so2_solved"
   ],
   "note": "LAPACK results are taken to be exact; models with a state variable (without one the solver has no states to differentiate by)."
  },
  {
   "property": "C86",
   "status": "proved",
   "theorems": [
    "C86_risk"
   ],
   "note": "As C85; symmetry of second derivatives is not needed."
  },
  {
   "property": "C87",
   "status": "partial",
   "theorems": [
    "C87_false",
    "C87_refused_partial",
    "C87_iff_partial"
   ],
   "note": "False: five kinds of models are always refused, among them every model with one state and one forward-looking variable, and every model with several states and one shock. All others that pass the check, have a state and no eigenvalue of modulus one are solved (C87_iff_partial), if the library inverts every regular array and decomposes the arrays of the model."
  },
  {
   "property": "C88",
   "status": "proved",
   "theorems": [
    "C88_symmetric"
   ],
   "note": "As C85."
  },
  {
   "property": "C89",
   "status": "partial",
   "theorems": [
    "C89_false",
    "C89_half_partial",
    "C89_first",
    "C89_other_orders",
    "so1_mean"
   ],
   "note": "False at second order: the coefficients are stored halved and are halved again, so that the reported mean departs from the steady state by half of what it should, for every model and process (C89_half_partial). At first order the mean is right (C89_first)."
  },
  {
   "property": "C90",
   "status": "partial",
   "theorems": [
    "C90_false",
    "C90_requests_partial",
    "C90_determinate_partial",
    "C90_first_refused_partial"
   ],
   "note": "False: the check marks the state space as verified before it raises, so that only the first request is refused. What every sequence of requests gives is proved."
  },
  {
   "property": "C91",
   "status": "proved",
   "theorems": [
    "C91_unit",
    "C91_symm",
    "C91_bounded",
    "C91_value"
   ],
   "note": "Exact arithmetic; at least one period is left; a variable that does not move has no correlation."
  },
  {
   "property": "C92",
   "status": "partial",
   "theorems": [
    "C92_false",
    "C92_bound_partial",
    "C92_value",
    "C92_last_lag_partial",
    "C92_accepted"
   ],
   "note": "False: products are averaged over T-k pairs and the variance over T periods; the bound is T/(T-k). With as many lags as periods, which is accepted, the last one is not a number."
  },
  {
   "property": "C93",
   "status": "proved",
   "theorems": [
    "C93_autocorr",
    "C93_corr"
   ],
   "note": "Exact arithmetic; autocorrelations for all factors other than zero."
  },
  {
   "property": "C94",
   "status": "proved",
   "theorems": [
    "C94_table"
   ],
   "note": "Formatting of numbers and padding are not modelled; a table of nothing but zeros cannot be printed (OverflowError)."
  },
  {
   "property": "C95",
   "status": "partial",
   "theorems": [
    "C95_false",
    "C95_refused_partial"
   ],
   "note": "False: the mask of rows is applied to columns; with a threshold the table raises IndexError unless there are as many variables as rows."
  },
  {
   "property": "C96",
   "status": "partial",
   "theorems": [
    "C96_false",
    "C96_table_partial",
    "C96_right_partial"
   ],
   "note": "False: rows of products of a state and a shock are in decision-rule order and their names in order of declaration. What is printed is proved in general, and that it is right if states without a lead are declared before states with one."
  },
  {
   "property": "C97",
   "status": "partial",
   "theorems": [
    "C97_false",
    "C97_shown_partial",
    "C97_hidden_partial"
   ],
   "note": "False: coefficients are compared without taking absolute values, so that rows of negative coefficients are left out. The rows shown are exactly those with a coefficient not below the threshold."
  },
  {
   "property": "C98",
   "status": "partial",
   "theorems": [
    "C98_false",
    "C98_usable_partial",
    "C98_refused_partial"
   ],
   "note": "False: of the numbered methods only 8 can be used; 0 is not implemented and the other entries of the table are descriptions, which cannot be called. Exactly which methods work is proved."
  },
  {
   "property": "C99",
   "status": "partial",
   "theorems": [
    "C99_false",
    "C99_zero_partial",
    "C99_minimum_partial"
   ],
   "note": "False: whether the minimiser succeeded is not looked at. The steady state reported solves the equations exactly if the objective is zero there, which it is if the minimiser finds a smallest value and there is a steady state."
  }
 ]
}