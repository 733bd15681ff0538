{
 "claims": [
  {
   "property": "C01",
   "status": "proved",
   "theorems": [
    "Props.C01_evidence_is_path_sum"
   ],
   "note": "All trees of Static/GaussianRandomWalk/Combined/Serial(break-points), all priors, data, timestamps; full mode for unit-spaced timestamps (see C08 for why)."
  },
  {
   "property": "C02",
   "status": "partial",
   "theorems": [
    "Props.C02_exact_factor",
    "Props.C02_partial",
    "Props.C02_refuted_lattice",
    "Props.C02_refuted_array",
    "Props.C02_refuted_const",
    "Props.C02_refuted_rvs"
   ],
   "note": "Claim is false of the code: change-point resets multiply by the cell volume, array priors are overwritten, scalar-valued function priors and random-variable priors reset wrongly. Exact factor proved; exact for cell volume 1 / Independent only."
  },
  {
   "property": "C03",
   "status": "proved",
   "theorems": [
    "Props.C03_filtering",
    "Props.C03_causal"
   ],
   "note": "Filtering for linear models; causality for every transition model."
  },
  {
   "property": "C04",
   "status": "proved",
   "theorems": [
    "Props.C04_smoothing"
   ],
   "note": ""
  },
  {
   "property": "C05",
   "status": "partial",
   "theorems": [
    "Props.C05_partial",
    "Props.C05_refuted"
   ],
   "note": "False for non-flat priors (prior counted twice); exact for flat prior."
  },
  {
   "property": "C06",
   "status": "partial",
   "theorems": [
    "Props.C06_partial",
    "Props.C06_refuted"
   ],
   "note": "Backward pass uses timestamp minus one; exact for unit spacing or time-independent models."
  },
  {
   "property": "C07",
   "status": "proved",
   "theorems": [
    "Props.C07_normalised",
    "Props.C07_distribution"
   ],
   "note": "Every transition model; non-negativity assumes the external spline/convolution returns no negative values."
  },
  {
   "property": "C08",
   "status": "partial",
   "theorems": [
    "Props.C08_evidenceOnly",
    "Props.C08_full_or_zero",
    "Props.C08_partial",
    "Props.C70_modes",
    "Props.C08_refuted"
   ],
   "note": "forwardOnly/evidenceOnly agree for every model; full fit may report -inf for non-unit timestamps (refuted), agrees for unit spacing, and for all timestamps if likelihoods and prior have no zeros (C70_modes)."
  },
  {
   "property": "C09",
   "status": "proved",
   "theorems": [
    "Props.C09_zero_iff_impossible"
   ],
   "note": "Path-sum models; full mode for unit-spaced timestamps."
  },
  {
   "property": "C10",
   "status": "proved",
   "theorems": [
    "Props.C10_missing",
    "Props.C10_components",
    "Props.C10_evidence",
    "Props.C10_prediction",
    "Props.C10_deletion"
   ],
   "note": ""
  },
  {
   "property": "C100",
   "status": "proved",
   "theorems": [
    "Props.C100"
   ],
   "note": "Under the conditions under which evidences are exact (Candidate.Valid) for every combination; the prior of the parameters is not an array. The averaged posteriors are within (number of grid points in the set) x (number of grid points) x 10^-300 of the conditional probabilities (floor of C30)."
  },
  {
   "property": "C101",
   "status": "partial",
   "theorems": [
    "Props.C101_study",
    "Props.C101_hyper_refuted",
    "Props.C101_hyper_partial",
    "Props.C101_online"
   ],
   "note": "Proved for Study (every transition model and prior) and OnlineStudy. Refuted for HyperStudy: the averaged posteriors of early time steps depend on later data through the hyper-parameter distribution, and only through it (C101_hyper_partial, prior of the parameters not an array)."
  },
  {
   "property": "C102",
   "status": "proved",
   "theorems": [
    "Props.C102_watch",
    "Props.C102_forever",
    "Props.C102_models",
    "Props.C102_posterior"
   ],
   "note": "Same conditions on the models as in C98 and C99 (proper priors, linear transition models; change-points in the cases in which the evidence is exact, see C01, C02)."
  },
  {
   "property": "C103",
   "status": "partial",
   "theorems": [
    "Props.C103",
    "Props.C103_real",
    "Props.C103_narrow",
    "Props.C103_refuted"
   ],
   "note": "Proved for random walks whose filter has a radius of at least one grid step (with scipy's filter: standard deviation at least 1/8 of the lattice constant). For narrower walks the claim is false, C103_refuted: the walk then has no effect (C103_narrow)."
  },
  {
   "property": "C104",
   "status": "proved",
   "theorems": [
    "Props.C104",
    "Props.C104_stop",
    "Props.C104_log",
    "Props.C104_bayes"
   ],
   "note": "Standard model of floating-point arithmetic without underflow and overflow (Model/Rounding.lean). The accuracy of the likelihood values, of the prior array and of scipy's filter is a parameter; resets for priors that are not arrays. C104_bayes compares with the path-sum specification."
  },
  {
   "property": "C105",
   "status": "proved",
   "theorems": [
    "Props.C105",
    "Props.C105_real",
    "Props.C105_static_refuted"
   ],
   "note": "Standard model of floating-point arithmetic as in C104. The constant depends on the grid, the transition model and the bound for the likelihood ratios only. C105_real: scipy's filter, precision that suffices for data of any length. C105_static_refuted: the second part of the statement (constant parameters)."
  },
  {
   "property": "C106",
   "status": "partial",
   "theorems": [
    "Props.C106_refuted",
    "Props.C106_silent_refuted",
    "Props.C106_partial",
    "Props.C106_stop_partial",
    "Props.C106_walks_partial",
    "Props.C106_walks_stop_partial"
   ],
   "note": "Does not hold for all data (C106_refuted: possible data reported as impossible; C106_silent_refuted: wrong results without message). Proved if likelihood ratios of single data points and the smallest prior and likelihood values stay within an explicit bound (Spec.margin), for models from Static, GaussianRandomWalk, Combined, Serial without resets: C106_partial, C106_stop_partial (bound depends on the number of data points); C106_walks_partial, C106_walks_stop_partial (random walks, any number of data points). Missing: a bound that is also necessary, overflow."
  },
  {
   "property": "C107",
   "status": "proved",
   "theorems": [
    "Props.C107",
    "Props.C107_set",
    "Props.C107_evidence",
    "Props.C107_compare",
    "Props.C107_real",
    "Props.C107_poisson",
    "Props.C107_bernoulli"
   ],
   "note": "Static model, independent data of any distribution. C107: one best grid value; C107_set: several equally good ones; C107_evidence: log-evidence per data point; C107_compare: evidences of two studies; C107_real, C107_poisson, C107_bernoulli: built-in observation models with explicit criterion."
  },
  {
   "property": "C108",
   "status": "partial",
   "theorems": [
    "Props.C108_partial",
    "Props.C108_singles_partial",
    "Props.C108_size"
   ],
   "note": "Compares runs with rounding errors (Model/RoundingHyper.lean) with the exact result. C108_partial: accuracy of the averages, given the accuracy of the single results; C108_singles_partial: accuracy of the single results, by C104; C108_size: the bounds for 53-bit numbers. Missing: a prior of the parameters that is a numpy array (C29 fails there, too), and full fits in which a combination with possible data stops in the backward pass."
  },
  {
   "property": "C109",
   "status": "partial",
   "theorems": [
    "Props.C109_partial",
    "Props.C109_average",
    "Props.C109_local",
    "Props.C109_local_first",
    "Props.C109_exists",
    "Props.finished_close",
    "Props.hyp_close"
   ],
   "note": "Compares runs with rounding errors (Model/RoundingOnline.lean) with the exact study. C109_partial: all results after any number of steps; C109_local: the local distribution of the models, given the accuracy of the log-evidences before and after the step (C109_local_first: the first analysed data segment). C109_exists: the hypotheses can be met with errors as small as desired. Missing: transition models outside the class of C104, resets to a prior given as numpy array (the code overwrites it), underflow inside a single hypothesis."
  },
  {
   "property": "C11",
   "status": "proved",
   "theorems": [
    "Props.C11_one_shot",
    "Props.C11_order"
   ],
   "note": ""
  },
  {
   "property": "C110",
   "status": "partial",
   "theorems": [
    "Props.C110_partial",
    "Props.C110_notEqual_refuted"
   ],
   "note": "Proved for all models except NotEqual. C110_notEqual_refuted: with NotEqual all results become undefined. The values of the likelihood are assumed positive, alpha-stable kernels and the spline shift of Deterministic are assumed to keep positive arrays positive."
  },
  {
   "property": "C111",
   "status": "partial",
   "theorems": [
    "Props.C111_partial",
    "Props.C111_refuted",
    "Props.C111_last_refuted"
   ],
   "note": "Proved for models made of ChangePoint, Static, Combined and serial models of Static parts separated by change-points, with the default prior or a prior function, more than one combination in order, and candidate values that are time stamps other than the last ('all' included). C111_refuted and C111_last_refuted: for other candidate values the reported distribution is not the posterior distribution. Missing: array and random-variable priors; full fits with zero likelihoods at irregular time stamps (C08)."
  },
  {
   "property": "C112",
   "status": "partial",
   "theorems": [
    "Props.C112_partial"
   ],
   "note": "Proved for full fits with the default prior and time stamps one unit apart, models made of ChangePoint, Static, Combined and serial models of Static parts separated by change-points, more than one combination in order, and candidate values that are time stamps other than the last ('all' included). Missing: prior functions and irregular time stamps, for which the backward pass is wrong in general (C08)."
  },
  {
   "property": "C113",
   "status": "partial",
   "theorems": [
    "Props.C113_partial",
    "Props.C113_refuted",
    "Props.C113_held_refuted",
    "Props.C113_grid_refuted"
   ],
   "note": "Proved for prior functions that return a new array (or a number), and for all prior functions if the model never falls back to the prior (no ChangePoint, Independent or change-point between models in series), provided that a prior array is not an array of the grid. C113_refuted, C113_held_refuted, C113_grid_refuted: in the other cases arrays are overwritten and the results are wrong. Missing: contents of the memory after a fit that ends with an exception."
  },
  {
   "property": "C114",
   "status": "proved",
   "theorems": [
    "Props.C114",
    "Props.C114_parameters",
    "Props.C114_models",
    "Props.C114_hyper"
   ],
   "note": "C114 shows that the studies agree up to the order of the models; the other theorems show that then all queries give the same answers (probabilities of models: for models with different names; hyper-parameters: if only one model has a hyper-parameter of this name, which step() demands). If the study fails, it fails in every order (apply C114 to the inverse permutation), but possibly with another exception."
  },
  {
   "property": "C115",
   "status": "partial",
   "theorems": [
    "Props.C115_time_partial",
    "Props.C115_duration_partial",
    "Props.C39_refuted"
   ],
   "note": "Proved in the setting of C111 (candidate values are time stamps other than the last, more than one increasing combination, default prior or prior function). Durations: always for two change-points; with three and more change-points the query may raise an IndexError (C39_refuted) and is exact otherwise."
  },
  {
   "property": "C116",
   "status": "partial",
   "theorems": [
    "Props.C116_partial",
    "Props.C116_hyper_partial",
    "Props.C116_models_partial",
    "Props.C116_refuted",
    "Props.C116_reset_refuted",
    "Props.C116_hyper_refuted",
    "Props.C116_models_refuted"
   ],
   "note": "The claim holds for everything given as floats, for prior functions with models that never return to the prior, for hyper-priors given as Python lists and for transition-model priors that sum to one. It is false otherwise: integer arrays, integer-valued functions with change-points, integer-valued hyper-priors and improper integer transition-model priors raise exceptions (refuted for all inputs of these kinds)."
  },
  {
   "property": "C117",
   "status": "partial",
   "theorems": [
    "Props.C117_partial",
    "Props.C117_average_partial",
    "Props.C117_query_partial",
    "Props.C117_duration_partial",
    "Props.C117_segments"
   ],
   "note": "Proved for all models, grids, data and non-array priors. Missing: priors given as array (shared between the fits, refuted in C32), full fits with time stamps not one unit apart (C08), averaged distributions of full fits with time stamps not one unit apart (C06); duration queries with three and more breaks may raise IndexError (C39_refuted)."
  },
  {
   "property": "C118",
   "status": "partial",
   "theorems": [
    "Props.C118_partial",
    "Props.C118_time",
    "Props.C118_distribution",
    "Props.C118_distribution_time",
    "Props.C118_refuted"
   ],
   "note": "C118_partial: names, missing time steps, time steps after @, for queries with relational operator; C118_distribution: the same for queries without; C118_time, C118_distribution_time: argument t and the first study. Refuted for the argument t and the other studies (C118_refuted). Not covered: a time step after @ for a parameter (not hyper-parameter) which has a single distribution, where only the shapes of the arrays decide."
  },
  {
   "property": "C119",
   "status": "partial",
   "theorems": [
    "Props.C119_partial",
    "Props.C119_query_partial",
    "Props.C119_joint_partial",
    "Props.C119_average_partial",
    "Props.C119_forward_partial"
   ],
   "note": "Not covered: priors of the parameters given as array (modified by the fits, C32), full fits with time stamps not one unit apart (C08), earlier time steps of forward-only fits (C101), models with resets (C111, C112 for change-points)."
  },
  {
   "property": "C12",
   "status": "partial",
   "theorems": [
    "Props.C12_forward",
    "Props.C12_partial",
    "Props.C12_refuted"
   ],
   "note": "Forward results: every model. Full fit: every model without RegimeSwitch; with RegimeSwitch the claim is false (witness)."
  },
  {
   "property": "C120",
   "status": "partial",
   "theorems": [
    "Props.C120_partial",
    "Props.C120_models_partial"
   ],
   "note": "Not covered: transition models that depend on time (evaluated at time -1, C40_refuted), priors of the parameters given as array, combinations that rule out the data, prior probabilities of the models that are not equal and hyper-grids with different cell volumes (false, C41_refuted and C42_refuted)."
  },
  {
   "property": "C121",
   "status": "partial",
   "theorems": [
    "Props.C121_partial",
    "Props.C121_hyper_partial",
    "Props.C121_number_refuted"
   ],
   "note": "Restrictions of C120. Hyper-parameter query: first call only (with a single hyper-parameter the call changes the stored distribution, C44_refuted); all hyper-parameters of the model given as arrays (with a plain number the query fails, C121_number_refuted)."
  },
  {
   "property": "C122",
   "status": "partial",
   "theorems": [
    "Props.C122_partial",
    "Props.C122_hyper_partial"
   ],
   "note": "Conditions as in C120 and C121: models assembled from Static, GaussianRandomWalk and Combined, regular grid, prior not an array, hyper-parameter names of the queried model given by arrays of distinct values, name in one model only. C122_hyper_partial states the hyper-parameter results, C122_partial the others. Row and time stamp of a data point count from the first full segment (C63). Missing: other transition models."
  },
  {
   "property": "C123",
   "status": "partial",
   "theorems": [
    "Props.C123_partial",
    "Props.C123_full_partial"
   ],
   "note": "C123_partial: independent data, segment length one; C123_full_partial: any joint density, any segment length. Restrictions of C120 (Static, GaussianRandomWalk, Combined; equal cell volumes of the hyper-grids; equal prior probabilities of the models, since others are ignored, C41_refuted). Missing: other transition models, likelihoods with zeros."
  },
  {
   "property": "C124",
   "status": "partial",
   "theorems": [
    "Props.C124_partial",
    "Props.C124_watch_partial"
   ],
   "note": "C124_partial: any stopping rule; C124_watch_partial: first time that a reported probability reaches a threshold. Segment length one, restrictions of C123 (Static, GaussianRandomWalk, Combined; equal cell volumes of the hyper-grids; positive likelihoods). Missing: other transition models, likelihoods with zeros."
  },
  {
   "property": "C125",
   "status": "partial",
   "theorems": [
    "Props.C125_partial",
    "Props.C125_breaks_partial"
   ],
   "note": "Proved for models made of change-points (candidates are time stamps other than the last, setting of C111; parameter estimates in the setting of C112) and for random walks in series separated by structural breaks (setting of C117). Examples show that the hypotheses are met, including existence of the draws. Missing: candidates that are no time stamps (refuted in C111), models that mix change-points with random walks, parameter priors given as array, full fits excluded by C08."
  },
  {
   "property": "C126",
   "status": "partial",
   "theorems": [
    "Props.C126_partial",
    "Props.C126_average_partial",
    "Props.C126_query_partial",
    "Props.C126_duration_partial",
    "Props.C126_meaning",
    "Props.C126_calibrated_partial"
   ],
   "note": "Proved for default priors and priors given as functions, candidate times of change-points that are time stamps other than the last, and (full fits) the default prior with time stamps one unit apart. Missing: priors given as arrays or random variables, full fits in other settings (C08 is refuted there), change-points nested in the sub-models of a serial model, other kinds of random walks. The reported evidence contains the volume of a grid cell once per change-point (C02)."
  },
  {
   "property": "C127",
   "status": "partial",
   "theorems": [
    "Props.C127_partial",
    "Props.C127_separate_partial",
    "Props.C127_answered",
    "Props.C127_separate_answered",
    "Props.C127_refuted"
   ],
   "note": "Proved if the two sides are not the same infinity for values of the parameters with non-vanishing probability; refuted for equal infinities (1/x >= 1/x). Queries are answered if all functions exist and no number is divided by the number zero (C127_answered). Signed zeros are not modelled."
  },
  {
   "property": "C128",
   "status": "partial",
   "theorems": [
    "Props.C128_partial",
    "Props.C128_swap_partial",
    "Props.C128_swap_separate_partial",
    "Props.C128_refuted"
   ],
   "note": "Proved for queries that are answered, for parameters of one study at one time step (implications and exchanged sides) and for separate parameters (exchanged sides), if the two sides are not the same infinity; refuted for different parameters of one study at different time steps."
  },
  {
   "property": "C129",
   "status": "partial",
   "theorems": [
    "Props.C129_partial",
    "Props.C129_filtering_partial",
    "Props.C129_refuted"
   ],
   "note": "Proved for queries in which all parameters are taken at the same time step (and the two sides are not the same infinity, all functions exist and no number is divided by the number zero); refuted for queries comparing values at different time steps, which the code treats as independent."
  },
  {
   "property": "C13",
   "status": "partial",
   "theorems": [
    "Props.C13_exact",
    "Props.C13_product",
    "Props.C13_partial",
    "Props.C13_refuted"
   ],
   "note": "False unless cell volume is one: stored values carry a spurious factor (exact factor proved)."
  },
  {
   "property": "C130",
   "status": "partial",
   "theorems": [
    "Props.C130_partial",
    "Props.C130_changepoint_partial",
    "Props.C130_parameters_partial",
    "Props.C130_pieces_partial",
    "Props.C130_refuted"
   ],
   "note": "False for queries that mix parameters and hyper-parameters, which are treated as independent (C130_refuted). Proved for the hyper-studies of C119 (Static models, Gaussian random walks, structural breaks) and the change-point studies of C111/C112; the two sides are not the same infinity, all functions exist and no number is divided by the number zero. For parameters of the observation model: full fits with time stamps one unit apart, up to the floor 1e-300 times the square of the number of grid points. Missing: priors given as array, full fits with time stamps not one unit apart (C08), queries that mix parameters and hyper-parameters (treated as independent by the code)."
  },
  {
   "property": "C131",
   "status": "partial",
   "theorems": [
    "Props.C131_partial",
    "Props.C131_hyper_partial",
    "Props.C131_history_partial"
   ],
   "note": "Proved for online studies in the setting of C120, for current parameters and hyper-parameters of studies without history and for parameters at every time stamp of studies with history (parameters: hyper-grids of the same cell volume, equal prior probabilities of the transition models); the two sides are not the same infinity, all functions exist and no number is divided by the number zero. Missing: hyper-parameters of studies with history (their past distributions are exact by C122, but the combination with the parser is not proved), change-points (C120), priors given as array."
  },
  {
   "property": "C14",
   "status": "partial",
   "theorems": [
    "Props.C14_exact",
    "Props.C14_partial",
    "Props.C14_refuted_cell",
    "Props.C14_refuted_zero"
   ],
   "note": "False unless cell volume is one and no likelihood vanishes; exact value proved for positive likelihoods."
  },
  {
   "property": "C15",
   "status": "partial",
   "theorems": [
    "Props.C15_partial",
    "Props.C15_refuted"
   ],
   "note": "Holds for every history and every prior that is not a numpy array; false for arrays (overwritten in place)."
  },
  {
   "property": "C16",
   "status": "partial",
   "theorems": [
    "Props.C16_partial",
    "Props.C16_refuted"
   ],
   "note": "Holds unless one of the two priors sums to exactly one and the cell volume is not one."
  },
  {
   "property": "C17",
   "status": "proved",
   "theorems": [
    "Props.C17_regimeSwitch"
   ],
   "note": ""
  },
  {
   "property": "C18",
   "status": "proved",
   "theorems": [
    "Props.C18_notEqual",
    "Props.C18_uniform"
   ],
   "note": "Uniform distributions (excluded by the claim) give nan."
  },
  {
   "property": "C19",
   "status": "proved",
   "theorems": [
    "Props.C19_walk",
    "Props.C19_total",
    "Props.C19_commute"
   ],
   "note": "Kernel weights: symmetric, sum one (GaussOK)."
  },
  {
   "property": "C20",
   "status": "proved",
   "theorems": [
    "Props.C20_segment",
    "Props.C20_total",
    "Props.C20_constructor"
   ],
   "note": ""
  },
  {
   "property": "C21",
   "status": "partial",
   "theorems": [
    "Props.C21_append",
    "Props.C21_predictions",
    "Props.C21_fit_combined",
    "Props.C21_fit_partial",
    "Props.C21_refuted"
   ],
   "note": "Predictions: always. Fits: all rewritings inside combinations for every prior; rewriting a combination of one model for priors that are not arrays (false for arrays)."
  },
  {
   "property": "C22",
   "status": "partial",
   "theorems": [
    "Props.C22_changePoint",
    "Props.C22_several_partial",
    "Props.C22_refuted_array"
   ],
   "note": "One change-point: every prior. Several: every prior that is not an array (false for arrays)."
  },
  {
   "property": "C23",
   "status": "proved",
   "theorems": [
    "Props.C23_split"
   ],
   "note": ""
  },
  {
   "property": "C24",
   "status": "proved",
   "theorems": [
    "Props.C24_step",
    "Props.C24_accumulated",
    "Props.C24_break"
   ],
   "note": "Accumulated shift: interpolation assumed additive on the shifts used (shown for whole-cell shifts)."
  },
  {
   "property": "C25",
   "status": "partial",
   "theorems": [
    "Props.C25_all_partial",
    "Props.C25_selected_partial",
    "Props.C25_selected_error",
    "Props.C25_get",
    "Props.C25_unpack_partial",
    "Props.C25_refuted"
   ],
   "note": "Every nesting with distinct names; false if a hyper-parameter is named ' ' (the code uses this string as a mark)."
  },
  {
   "property": "C26",
   "status": "partial",
   "theorems": [
    "Props.C26_partial",
    "Props.C26_proper",
    "Props.C26_refuted"
   ],
   "note": "Every nesting of constructor calls except: list of priors for Deterministic (dropped by the code), list as third value of BivariateRandomWalk, Python list as prior; these are refuted."
  },
  {
   "property": "C27",
   "status": "partial",
   "theorems": [
    "Props.C27_partial",
    "Props.C27_refuted"
   ],
   "note": "Iff for Study.fit; HyperStudy.fit raises AttributeError/TypeError for missing observation model/data."
  },
  {
   "property": "C28",
   "status": "partial",
   "theorems": [
    "Props.C28_grid",
    "Props.C28_prior",
    "Props.C28_cell",
    "Props.C28_normalised_partial",
    "Props.C28_refuted"
   ],
   "note": "Enumeration and product form hold without restriction. Normalisation holds unless a hyper-prior is a sympy random variable (not normalised in the code, C28_refuted)."
  },
  {
   "property": "C29",
   "status": "partial",
   "theorems": [
    "Props.C29_partial",
    "Props.C29_between_partial",
    "Props.C29_refuted"
   ],
   "note": "Holds for all transition models built by the constructors and all hyper-priors, fit modes and numbers of jobs, if the parameter prior is not a numpy array (fit overwrites such a prior; C29_refuted). The bounds need normalised non-negative hyper-priors."
  },
  {
   "property": "C30",
   "status": "partial",
   "theorems": [
    "Props.C30_partial",
    "Props.C30_error_partial",
    "Props.C30_refuted"
   ],
   "note": "Same restriction on the parameter prior as C29. The floor against log(0) is modelled; its effect is at most epsilon times the number of grid points. False for parameter priors given as arrays (C30_refuted)."
  },
  {
   "property": "C31",
   "status": "partial",
   "theorems": [
    "Props.C31_partial",
    "Props.C31_zero_partial",
    "Props.C31_refuted"
   ],
   "note": "Same restriction on the parameter prior as C29; zero total evidence gives nan.. False for parameter priors given as arrays (C31_refuted)."
  },
  {
   "property": "C32",
   "status": "partial",
   "theorems": [
    "Props.C32_partial",
    "Props.C32_refuted"
   ],
   "note": "Refuted for parameter priors given as numpy arrays; holds otherwise, including errors."
  },
  {
   "property": "C33",
   "status": "partial",
   "theorems": [
    "Props.C33_partial",
    "Props.C33_refuted"
   ],
   "note": "Refuted for the value 'all', which is replaced by an array; holds otherwise."
  },
  {
   "property": "C34",
   "status": "proved",
   "theorems": [
    "Props.C34",
    "Props.C34_fit_partial"
   ],
   "note": "C34 holds for every stored distribution; that the probabilities sum to one after a fit inherits the restrictions of C31 (C34_fit_partial)."
  },
  {
   "property": "C35",
   "status": "partial",
   "theorems": [
    "Props.C35_partial",
    "Props.C35_refuted",
    "Props.C35_joint_refuted"
   ],
   "note": "Refuted when there is nothing to marginalise: the result is a view and is multiplied in place."
  },
  {
   "property": "C36",
   "status": "partial",
   "theorems": [
    "Props.C36_partial",
    "Props.C36_transpose_partial",
    "Props.C36_marginal",
    "Props.C36_refuted"
   ],
   "note": "Holds if both hyper-parameters have at least two values; axes of length one are dropped (C36_refuted)."
  },
  {
   "property": "C37",
   "status": "partial",
   "theorems": [
    "Props.C37_partial",
    "Props.C37_refuted"
   ],
   "note": "Refuted when a single fit stops early: uninitialised memory enters the average."
  },
  {
   "property": "C38",
   "status": "partial",
   "theorems": [
    "Props.C38_partial",
    "Props.C38_posterior_partial",
    "Props.C38_refused",
    "Props.C38_refuted"
   ],
   "note": "Proved for parameter priors that are not numpy arrays and more than one combination in order; with exactly one combination in order the fit can raise ValueError (C38_refuted)."
  },
  {
   "property": "C39",
   "status": "partial",
   "theorems": [
    "Props.C39_partial",
    "Props.C39_refuted"
   ],
   "note": "If the query returns, it is the distribution of the distance and sums to one; it always returns with exactly two points; with three points it can raise IndexError (C39_refuted)."
  },
  {
   "property": "C40",
   "status": "partial",
   "theorems": [
    "Props.C40_partial",
    "Props.C40_constant_time",
    "Props.C40_refuted"
   ],
   "note": "Equality with Study.fit(forwardOnly=True) for all models whose transition does not depend on time, all hyper-parameter values, all data, every prefix, non-array priors, positive evidence. Time-dependent models (change-points, Deterministic, serial): the online study passes t = -1 at every step, so it equals a fit with all time stamps -1 (C40_constant_time); the claim itself is false (C40_refuted). Array priors: the fit overwrites the user's array, see C15."
  },
  {
   "property": "C41",
   "status": "partial",
   "theorems": [
    "Props.C41_exact",
    "Props.C41_defined",
    "Props.C41_evidence",
    "Props.C41_partial",
    "Props.C41_refuted"
   ],
   "note": "The code ignores the prior of the transition models and the cell volume of the hyper-grids (C41_refuted); C41_exact gives the law that holds for all inputs; the claim holds for equal priors and equal cell volumes."
  },
  {
   "property": "C42",
   "status": "partial",
   "theorems": [
    "Props.C42_partial",
    "Props.C42_refuted"
   ],
   "note": "Mixture with the stored weights, for all inputs; the stored model weights differ from the posterior weights as described at C41. With the posterior weights the claim is false (C42_refuted)."
  },
  {
   "property": "C43",
   "status": "proved",
   "theorems": [
    "Props.C43",
    "Props.C43_append"
   ],
   "note": "every sequence of calls (queries and failing calls included); C43_append gives the effect of one more step"
  },
  {
   "property": "C44",
   "status": "partial",
   "theorems": [
    "Props.C44_parameters_partial",
    "Props.C44_alias_partial",
    "Props.C44_current_partial",
    "Props.C44_models_partial",
    "Props.C44_hyper_means_partial",
    "Props.C44_hyper_partial",
    "Props.C44_refuted",
    "Props.C44_current_model_partial"
   ],
   "note": "consistent: parameter distributions, current distributions, model probabilities, hyper-parameter means; hyper-parameter distributions after multiplication with the cell volume. The full claim is false of the code (C44_refuted): getPD drops density, getParameterMeanValue indexes the distribution with the time, getHyperParameterDistribution(t) is not multiplied by the cell volume, getCurrentHyperParameterDistribution changes its own result, single time stamp"
  },
  {
   "property": "C45",
   "status": "partial",
   "theorems": [
    "Props.C45_partial",
    "Props.C45_history_partial",
    "Props.C45_recover_partial",
    "Props.C45_refuted"
   ],
   "note": "queries other than the parameter-distribution queries leave the study unchanged when they fail; after a failing parameter-distribution query a successful one restores it. The full claim is false of the code (C45_refuted)"
  },
  {
   "property": "C46",
   "status": "partial",
   "theorems": [
    "Props.C46_partial",
    "Props.C46_bounds_partial",
    "Props.C46_refuted"
   ],
   "note": "Bounds: every expression. Sum one: expressions built from +, -, * and numbers (never undefined). The full claim is false: undefined values (x/x at 0) belong to neither of two complementary queries (C46_refuted)."
  },
  {
   "property": "C47",
   "status": "proved",
   "theorems": [
    "Props.C47",
    "Props.C47_separate",
    "Props.C47_operation"
   ],
   "note": "Whole queries over parameters of different studies, over one parameter at different times, and over parameters combined with hyper-parameters (total correctness); single operations."
  },
  {
   "property": "C48",
   "status": "partial",
   "theorems": [
    "Props.C48_partial",
    "Props.C48_refuted"
   ],
   "note": "Parameters of one study with identical time: joint distribution. False for different parameters at different times and for expressions that use the same parameter in both a derived quantity and directly (C48_refuted)."
  },
  {
   "property": "C49",
   "status": "partial",
   "theorems": [
    "Props.C49_partial",
    "Props.C49_refuted"
   ],
   "note": "Sum is one minus the probability of the largest value minus the probability of undefined/infinite values; the full claim is false (C49_refuted)."
  },
  {
   "property": "C50",
   "status": "proved",
   "theorems": [
    "Props.C50"
   ],
   "note": ""
  },
  {
   "property": "C51",
   "status": "proved",
   "theorems": [
    "Props.C51_cint",
    "Props.C51_oint",
    "Props.C51_lattice",
    "Props.C51_single"
   ],
   "note": "cint for n >= 2; n = 1 gives [a] (proved)."
  },
  {
   "property": "C52",
   "status": "proved",
   "theorems": [
    "Props.C52_segments"
   ],
   "note": ""
  },
  {
   "property": "C53",
   "status": "partial",
   "theorems": [
    "Props.C53_partial",
    "Props.C53_refuted"
   ],
   "note": "Holds if no call passes a wrong number of timestamps; otherwise false (old timestamps are kept)."
  },
  {
   "property": "C54",
   "status": "proved",
   "theorems": [
    "Props.C54_order",
    "Props.C54_set",
    "Props.C54_exception"
   ],
   "note": "Successful calls; C54_exception shows the mixed state after a failing call."
  },
  {
   "property": "C55",
   "status": "proved",
   "theorems": [
    "Props.C55",
    "Props.C55_average"
   ],
   "note": "Every fit with non-zero evidence; distinct parameter names and time stamps."
  },
  {
   "property": "C56",
   "status": "proved",
   "theorems": [
    "Props.C56_bernoulli",
    "Props.C56_outside",
    "Props.C56_components",
    "Props.C56_poisson"
   ],
   "note": "Over the real numbers. Bernoulli also for values outside [0,1] and for multi-component observations; Poisson for all non-negative rates."
  },
  {
   "property": "C57",
   "status": "proved",
   "theorems": [
    "Props.C57",
    "Props.C57_components",
    "Props.C57_missing",
    "Props.C57_gaussianMean"
   ],
   "note": "Over the real numbers, Lebesgue integral. Also multi-component observations and missing components."
  },
  {
   "property": "C58",
   "status": "partial",
   "theorems": [
    "Props.C58_partial",
    "Props.C58_selected",
    "Props.C58_none",
    "Props.C58_refuted"
   ],
   "note": "Holds for every nested model with at least one other hyper-parameter, every behaviour of the minimiser and every way the call ends; false if the model has only change-/break-points (C58_refuted)."
  },
  {
   "property": "C59",
   "status": "partial",
   "theorems": [
    "Props.C59_partial",
    "Props.C59_rebuilt",
    "Props.C59_current",
    "Props.C59_refuted",
    "Props.C59_bivariate_refuted"
   ],
   "note": "Proved for every history in which the observation model is not replaced after the first transition, and whenever the values change after a replacement. With equal hyper-parameter values and a new grid the code uses the old kernel (C59_refuted, C59_bivariate_refuted)."
  },
  {
   "property": "C60",
   "status": "proved",
   "theorems": [
    "Props.C60",
    "Props.C60_segments"
   ],
   "note": "If the values do not all vanish (otherwise nan)."
  },
  {
   "property": "C61",
   "status": "partial",
   "theorems": [
    "Props.C61_partial",
    "Props.C61_bernoulli",
    "Props.C61_countable_partial",
    "Props.C61_poisson",
    "Props.C61_real",
    "Props.C61_autoregressive",
    "Props.C61_refuted",
    "Props.C61_iterated_partial"
   ],
   "note": "Forward-only and evidence-only fits: finite or infinite discrete observation spaces (also with memory) and all transition models except NotEqual, change-points only on cells of volume one (Bernoulli, Poisson). Real-valued observations (Gaussian, Laplace, WhiteNoise, AR1, ScaledAR1): linear reset-free models, all modes. C61_refuted: with change-points on other cells the code multiplies each reset by the cell volume, so the evidences do not sum to one. C61_iterated_partial: any measure on the observations and all these transition models, as an iterated integral."
  },
  {
   "property": "C62",
   "status": "partial",
   "theorems": [
    "Props.C62_partial",
    "Props.C62_gaussianMean_partial",
    "Props.C62_refuted",
    "Props.C62_constant_refuted"
   ],
   "note": "Proved for Poisson, Gaussian, Laplace, WhiteNoise, AR1, ScaledAR1 and GaussianMean with non-constant data (Poisson: at least one event), linear reset-free transition models and default timestamps, all fit modes; the values of the default prior must not happen to sum to exactly one (C16). C62_refuted: with Bernoulli every fit reports evidence zero, because the default grid contains the singularities of the default prior; C62_constant_refuted: the same for constant data."
  },
  {
   "property": "C63",
   "status": "partial",
   "theorems": [
    "Props.C63_partial",
    "Props.C63_first_partial",
    "Props.C63_refuted"
   ],
   "note": "Proved for every step after the first analysed one, and for the first one with equal cell volumes of the hyper-grids. With different cell volumes the first step is wrong (C63_refuted)."
  },
  {
   "property": "C64",
   "status": "partial",
   "theorems": [
    "Props.C64_parameters_partial",
    "Props.C64_current_partial",
    "Props.C64_hyper_partial",
    "Props.C64_refuted"
   ],
   "note": "Proved for parameters at all times, current parameters and hyper-parameters. getParameterMeanValue for one time step is wrong (C64_refuted)."
  },
  {
   "property": "C65",
   "status": "proved",
   "theorems": [
    "Props.C65_bernoulli",
    "Props.C65_poisson",
    "Props.C65_gaussian",
    "Props.C65_laplace",
    "Props.C65_whiteNoise",
    "Props.C65_gaussianMean"
   ],
   "note": "Fisher information computed as integral or sum over all observations; the prior equals a constant times the root of its determinant at every admissible parameter value."
  },
  {
   "property": "C66",
   "status": "partial",
   "theorems": [
    "Props.C66_partial",
    "Props.C66_scaled_partial",
    "Props.C66_errors",
    "Props.C66_steps",
    "Props.C66_refuted",
    "Props.C66_scaled_refuted"
   ],
   "note": "The returned array is normalised and, for AR1, the Jeffreys prior for one observation more than loaded (C66_partial); with the right number it is not (C66_refuted). For ScaledAR1 the factor sqrt(1-r^2) is missing as well (C66_scaled_partial, C66_scaled_refuted). Errors as stated."
  },
  {
   "property": "C67",
   "status": "proved",
   "theorems": [
    "Props.C67_scipy",
    "Props.C67_sympy",
    "Props.C67_order",
    "Props.C67_unknown",
    "Props.C67_missing",
    "Props.C67_numpy"
   ],
   "note": "Model of the constructors and pdf methods of NumPy, SciPy and SymPy; densities are arbitrary functions of the observation and an assignment of values to names. C67_order: any permutation of the listed parameters."
  },
  {
   "property": "C68",
   "status": "partial",
   "theorems": [
    "Props.C68_partial",
    "Props.C68_refuted",
    "Props.C68_flat"
   ],
   "note": "Given priors are used and determineJeffreysPrior=False gives a flat prior (C68_partial). The Jeffreys prior is never used, because the constructor reads an attribute it has not set (C68_refuted, for every distribution C68_flat)."
  },
  {
   "property": "C69",
   "status": "partial",
   "theorems": [
    "Props.C69_partial",
    "Props.C69_real",
    "Props.C69_refuted"
   ],
   "note": "Any measure on the observations (counting measure, Lebesgue measure), observation models with memory, all transition models except NotEqual (undefined for flat distributions); change-points on cells of volume one only: otherwise the claim is false (C69_refuted). C69_real: Gaussian, Laplace, WhiteNoise."
  },
  {
   "property": "C70",
   "status": "partial",
   "theorems": [
    "Props.C70_partial",
    "Props.C70_modes",
    "Props.C70_observation",
    "Props.C70_notEqual_refuted"
   ],
   "note": "All transition models except NotEqual, for which the claim is false (C70_notEqual_refuted); GaussianMean only through C70_partial (its likelihood underflow is not modelled)."
  },
  {
   "property": "C71",
   "status": "partial",
   "theorems": [
    "Props.C71_partial",
    "Props.C71_refuted"
   ],
   "note": "Hyper-parameter distribution and evidences of all combinations agree exactly, posteriors up to the floor of 10^-300 per grid point that HyperStudy adds, model evidences up to the volume of a hyper-grid cell, which OnlineStudy omits (C71_refuted)."
  },
  {
   "property": "C72",
   "status": "partial",
   "theorems": [
    "Props.C72_relation_partial",
    "Props.C72_distribution_partial",
    "Props.C72_meaning_partial",
    "Props.C72_chained",
    "Props.C72_ignored",
    "Props.C72_equals",
    "Props.C72_refuted"
   ],
   "note": "Proved for all texts that write an expression (C72_relation_partial, C72_distribution_partial; with C47: C72_meaning_partial), if the names of parameters and functions cannot be confused. Refuted: texts which are not understood completely are not rejected (C72_ignored, C72_equals), and names that begin with a function name and a parameter name are misread (C72_refuted). Not accepted by the code, and not in the specification of written forms: signs behind ^ other than those of a number."
  },
  {
   "property": "C73",
   "status": "proved",
   "theorems": [
    "Props.C73_mirror",
    "Props.C73",
    "Props.C73_break"
   ],
   "note": "C73_mirror is the general form: two models whose kernels act in mirrored order. C73: every combination of time-independent linear models in all fitting modes. C73_break: serial models with one break-point. An example shows that the flat prior is needed."
  },
  {
   "property": "C74",
   "status": "partial",
   "theorems": [
    "Props.C74_partial",
    "Props.C74_refuted"
   ],
   "note": "Holds if the array does not sum to exactly one or the cells have volume one. An array that sums to one is not divided by the cell volume (core.py 208-219), so the evidence of the second portion misses this factor (C74_refuted)."
  },
  {
   "property": "C75",
   "status": "partial",
   "theorems": [
    "Props.C75_partial",
    "Props.C75_refuted"
   ],
   "note": "All transition models without change-points (RegimeSwitch: forward modes; full fit see C12_refuted). With change-points the claim is false: the code multiplies the prior by the cell volume at each change-point, so that the evidence depends on the unit (C75_refuted)."
  },
  {
   "property": "C76",
   "status": "proved",
   "theorems": [
    "Props.C76_relabel",
    "Props.C76_sign"
   ],
   "note": "C76_relabel is the general statement (any permutation, any choice of mirrored parameters, any likelihoods that agree at corresponding points); C76_sign is the consequence for the built-in observation models. The symmetry of scipy's Gaussian filter, of the alpha-stable and the bivariate kernel is proved for their formulas (realExt_relabel); the spline interpolation of Deterministic is an external function that is assumed to be symmetric."
  },
  {
   "property": "C77",
   "status": "proved",
   "theorems": [
    "Props.C77",
    "Props.C77_unused",
    "Props.C77_unused_full"
   ],
   "note": "Both separate fits are assumed to succeed with evidence different from zero. Models that normalise or modify the whole array (RegimeSwitch, NotEqual, AlphaStableRandomWalk, Deterministic) and array priors (which the forward pass overwrites) are not covered by the statement. Unused parameters: C77_unused (forward-only and evidence-only), C77_unused_full (full fits under the conditions of C04-C06)."
  },
  {
   "property": "C78",
   "status": "partial",
   "theorems": [
    "Props.C78_partial",
    "Props.C78_local_partial",
    "Props.C78_local_refuted"
   ],
   "note": "Proved for parameter priors that are not numpy arrays (which every fit overwrites, see C29), for evidence, posterior distributions, mean values and the posterior probabilities of all combinations. The claim about local evidences is false (C78_local_refuted): they agree only up to the ratio of the hyper-grid cells (C78_local_partial)."
  },
  {
   "property": "C79",
   "status": "partial",
   "theorems": [
    "Props.C79_partial",
    "Props.C79_origin",
    "Props.C79_shift",
    "Props.C79_refuted"
   ],
   "note": "C79_partial: forward-only and evidence-only fits, every order-preserving map. C79_origin, C79_shift: all modes for another origin. Full fits with another unit: false (C79_refuted), because the backward pass looks for change-points at t - 1 (transitionModels.py 317)."
  },
  {
   "property": "C80",
   "status": "partial",
   "theorems": [
    "Props.C80_partial",
    "Props.C80_full_partial",
    "Props.C80_refuted"
   ],
   "note": "Models without NotEqual; change-points only for cells of volume one, otherwise the claim is false (C80_refuted). Lower bound for forward-only and evidence-only fits, upper bound also for full fits (a full fit can report evidence zero, see C08)."
  },
  {
   "property": "C81",
   "status": "proved",
   "theorems": [
    "Props.C81_evidence",
    "Props.C81_smoothing",
    "Props.C81_filtering",
    "Props.C81_notEqual_refuted"
   ],
   "note": "Exactly the models named in the statement; for NotEqual the analogous claim is false (C81_notEqual_refuted). The smoothed and filtered distributions are compared for data of non-zero probability."
  },
  {
   "property": "C82",
   "status": "proved",
   "theorems": [
    "Props.C82",
    "Props.C82_means"
   ],
   "note": "Every transition model. An example shows that the first time step differs."
  },
  {
   "property": "C83",
   "status": "proved",
   "theorems": [
    "Props.C83_predictions",
    "Props.C83",
    "Props.C83_changePoint_refuted"
   ],
   "note": "The lattice constants are positive and the filter weights symmetric with sum one (proved for scipy's formula). With change-points in the combination the order matters (C83_changePoint_refuted)."
  },
  {
   "property": "C84",
   "status": "partial",
   "theorems": [
    "Props.C84_partial",
    "Props.C84_array_refuted",
    "Props.C84_full_refuted"
   ],
   "note": "Priors that are not numpy arrays; in full fits the change-points must also avoid the times one unit before the time stamps, and unused or used segments must be the same there. The claim is false for arrays, which are overwritten by some models and copied by others (C84_array_refuted), and for full fits with a change-point between time stamps (C84_full_refuted)."
  },
  {
   "property": "C85",
   "status": "partial",
   "theorems": [
    "Props.C85_partial",
    "Props.C85_refuted",
    "Props.C85_all_refuted",
    "Props.C85_prior_refuted"
   ],
   "note": "Results of the fit agree whenever HyperStudy.fit returns, for numbers and lists with one element (break-points and hyper-parameters of Deterministic and BivariateRandomWalk: numbers). Refuted: the hyper-parameter distribution is missing or left over from an earlier fit (C85_refuted), 'all' is not replaced (C85_all_refuted), and a number with a function as hyper-prior is rejected (C85_prior_refuted)."
  },
  {
   "property": "C86",
   "status": "proved",
   "theorems": [
    "Props.C86",
    "Props.C86_one",
    "Props.C86_converse",
    "Props.C86_single_refuted"
   ],
   "note": "C86: whenever the change-point study returns, for all priors. C86_one: one point suffices. C86_converse: whenever the hyper-study returns, for priors that are not numpy arrays. For a single combination see C86_single_refuted (cf. C38, C85)."
  },
  {
   "property": "C87",
   "status": "partial",
   "theorems": [
    "Props.C87_partial",
    "Props.C87_exception",
    "Props.C87_order",
    "Props.C87_gaussian",
    "Props.C87_laplace",
    "Props.C87_whiteNoise",
    "Props.C87_poisson",
    "Props.C87_bernoulli",
    "Props.C87_refuted"
   ],
   "note": "SymPy is assumed to compute exactly. Holds unless a parameter has the name x, which the code uses for the observation (C87_refuted)."
  },
  {
   "property": "C88",
   "status": "proved",
   "theorems": [
    "Props.C88_density",
    "Props.C88_weight",
    "Props.C88_exception"
   ],
   "note": "Names of the parameters as in C87; the logarithm of the density must be differentiable in the parameters for almost all observations, with finite Fisher information."
  },
  {
   "property": "C89",
   "status": "partial",
   "theorems": [
    "Props.C89_partial",
    "Props.C89_refuted",
    "Props.C89_part_refuted",
    "Props.C89_prior_refuted"
   ],
   "note": "full claim (no condition on sharing) refuted: a transition model set in two studies, a part of a serial model used as model of another study, a shared array prior; proved for all sessions if transition models, random walks with kernels and observation models with array priors are not shared (other parts may be)"
  },
  {
   "property": "C90",
   "status": "partial",
   "theorems": [
    "Props.C90_partial",
    "Props.C90_refuted",
    "Props.C90_kernel_refuted"
   ],
   "note": "full claim refuted (time offset of a former part of a serial model, kernels of another grid); proved for all histories if the model was not a part of another model before and its kernels were not computed on another grid"
  },
  {
   "property": "C91",
   "status": "partial",
   "theorems": [
    "Props.C91_filtering_partial",
    "Props.C91_evidence_partial",
    "Props.C91_smoothing_partial",
    "Props.C91_expectation_partial",
    "Props.C91_exists",
    "Props.C91_unique",
    "Props.C91_refuted"
   ],
   "note": "Holds for Static, GaussianRandomWalk, RegimeSwitch, NotEqual, Independent, Combined and Serial models. Missing: with change-points the evidence has to be divided by the cell volume once per change-point (C91_refuted shows that it otherwise converges to zero); the densities and mean values converge also then. Exact conditional expected values given all data are shown for linear models with unit-spaced times and no resets or flat prior (C91_expectation_partial), which are the conditions of C04; AlphaStableRandomWalk, BivariateRandomWalk and Deterministic are not covered. C91_exists and C91_unique show that the limits exist for positive likelihoods and are unique."
  },
  {
   "property": "C92",
   "status": "partial",
   "theorems": [
    "Props.C92_parameter_partial",
    "Props.C92_time",
    "Props.C92_hyper_parameter",
    "Props.C92_hyper",
    "Props.C92_joint_partial",
    "Props.C92_online_parameter_partial",
    "Props.C92_online_hyper_partial",
    "Props.C92_online_model",
    "Props.C92_times_refuted",
    "Props.C92_values_refuted",
    "Props.C92_duration_refuted",
    "Props.C92_single_refuted"
   ],
   "note": "Holds for plots of one time step, for bar charts of hyper-parameters, for curves of transition-model probabilities, and for images if time stamps and values are equally spaced. Missing: the images are stretched uniformly, so with other time stamps (C92_times_refuted) or hyper-parameter values of an online study (C92_values_refuted) they show other probabilities; bars of duration distributions overlap (C92_duration_refuted); a single time stamp cannot be plotted (C92_single_refuted). The bars of joint charts are not shown to be disjoint, and hyper-parameters with a single value are excluded there (C36)."
  },
  {
   "property": "C93",
   "status": "partial",
   "theorems": [
    "Props.C93_time",
    "Props.C93_several",
    "Props.C93_partial",
    "Props.C93_again",
    "Props.C93_hyper_partial",
    "Props.C93_online_partial",
    "Props.C93_online_several",
    "Props.C93_refuted",
    "Props.C93_hyper_refuted"
   ],
   "note": "Holds for plots of one time step and for models with at least two parameters. For models with one parameter the clean-up of small values acts on the stored posterior distributions (C93_refuted); C93_partial shows that nothing else is changed. Plots of hyper-parameters inherit the scaling of the stored distribution by the query (C35; C93_hyper_refuted)."
  },
  {
   "property": "C94",
   "status": "partial",
   "theorems": [
    "Props.C94_partial",
    "Props.C94_recover_partial",
    "Props.C94_refuted"
   ],
   "note": "Holds if the name is that of a hyper-parameter or transition model. With an unknown name the stored mean values stay transposed: the query for mean values then returns wrong values and the next step fails (C94_refuted). C94_recover_partial shows that a second failing call repairs the study."
  },
  {
   "property": "C95",
   "status": "proved",
   "theorems": [
    "Props.C95",
    "Props.C95_filtering",
    "Props.C95_builtin"
   ],
   "note": "C95: full fit, general likelihoods; C95_filtering: forward-only fit and arbitrary distinct time stamps; C95_builtin: textbook densities of Gaussian, Laplace, WhiteNoise, AR1, ScaledAR1 (RealValued) and Poisson. The evidence part is for models without resets (C02 shows what happens otherwise)."
  },
  {
   "property": "C96",
   "status": "proved",
   "theorems": [
    "Props.C96",
    "Props.C96_rate",
    "Props.C96_real",
    "Props.C96_discrete",
    "Props.C96_poisson",
    "Props.C96_bernoulli"
   ],
   "note": "C96: almost sure convergence for any family of densities; C96_rate: geometric bound; C96_real, C96_poisson, C96_bernoulli: the built-in observation models, without missing data."
  },
  {
   "property": "C97",
   "status": "proved",
   "theorems": [
    "Props.C97"
   ],
   "note": "For sessions of plain studies as in C89 (Model/Objects.lean); cloudpickle is trusted to copy the graph of objects that can be reached from the study."
  },
  {
   "property": "C98",
   "status": "proved",
   "theorems": [
    "Props.C98",
    "Props.C98_full",
    "Props.C98_real",
    "Props.C98_discrete"
   ],
   "note": "C98: independent data given the path, full and forward-only fits; C98_full: likelihoods that depend on the data in any way (e.g. auto-regressive models); C98_real: Gaussian, Laplace, WhiteNoise; C98_discrete: probability mass functions. The conditions on prior, change-points and time stamps are those of C03 and C04."
  },
  {
   "property": "C99",
   "status": "proved",
   "theorems": [
    "Props.C99",
    "Props.C99_misleading"
   ],
   "note": "Under the conditions under which the evidence is exact (Candidate.Valid): without change-points, or with cells of volume one and without smoothing."
  }
 ]
}