{"id": "C01", "title": "Log-evidence is the exact marginal likelihood of the hidden-path model", "statement": "After Study.fit(), exp(logEvidence) equals the sum over all sequences of grid points (one grid point per data segment) of prior mass x product of transition probabilities x product of likelihoods, for every transition model assembled from Static, GaussianRandomWalk, CombinedTransitionModel and SerialTransitionModel with break-points (full mode: unit-spaced timestamps).", "quantifier": "every grid (any number and size of axes, any positive lattice constants), prior, non-negative likelihood table, timestamps, data length and every nested model of this kind", "why_tests_cant": "the number of parameter paths is exponential in the data length and the model nesting is unbounded; tests compare a handful of literals", "anchors": ["bayesloop/core.py: Study.fit", "bayesloop/transitionModels.py: Static, GaussianRandomWalk, CombinedTransitionModel, SerialTransitionModel"]}
{"id": "C02", "title": "Change-points split the data into independent pieces with multiplying evidences", "statement": "If the parameters are reset to the prior after a time step (ChangePoint, change-points inside a SerialTransitionModel, or Independent), then the evidence reported by fit is the marginal likelihood of the model in which the parameter after the reset is a fresh, independent draw from the prior.", "quantifier": "every grid, prior, likelihood table, data length, reset position and nesting of reset models", "why_tests_cant": "a test fixes one grid spacing; the claim is about every spacing and every position of the resets", "anchors": ["bayesloop/core.py: Study.fit", "bayesloop/transitionModels.py: ChangePoint, Independent, SerialTransitionModel._forwardChangePointCheck"]}
{"id": "C03", "title": "Forward-only posteriors are the exact filtering distributions", "statement": "fit(forwardOnly=True) stores at every time step the conditional distribution of the current parameter given the data up to and including that step (ratio of two path sums), and this distribution does not change when later data change.", "quantifier": "every grid, prior, data series, time step and every pair of continuations of the data", "why_tests_cant": "causality quantifies over all possible futures of a series", "anchors": ["bayesloop/core.py: Study.fit", "bayesloop/transitionModels.py"]}
{"id": "C04", "title": "Full-fit posteriors are the exact smoothing distributions", "statement": "For equally (unit-)spaced timestamps, fit() stores at every time step the conditional distribution of the parameter at that step given ALL data, i.e. the marginal of the path distribution of C01.", "quantifier": "every grid, prior, data series with positive evidence, time step, and every nested transition model of Static / GaussianRandomWalk / Combined / Serial (plus resets for a flat prior)", "why_tests_cant": "needs correctness of the backward recursion for all lengths and nestings; numbers in tests only freeze the output of the current implementation", "anchors": ["bayesloop/core.py: Study.fit (backward pass)", "bayesloop/transitionModels.py: computeBackwardPrior of all models"]}
{"id": "C05", "title": "Smoothing stays exact across a change-point for every prior", "statement": "The smoothed posterior before a change-point depends on the prior exactly once: it is the exact conditional distribution also when the observation model has a non-flat prior.", "quantifier": "every prior, change-point position and data series", "why_tests_cant": "a test with a flat prior cannot see the difference; the claim ranges over all priors", "anchors": ["bayesloop/transitionModels.py: ChangePoint.computeBackwardPrior, Independent.computeBackwardPrior, SerialTransitionModel._backwardChangePointCheck"]}
{"id": "C06", "title": "Forward and backward pass use the same transition for every spacing of timestamps", "statement": "The transition applied between data point i and i+1 in the backward pass is the one that was applied in the forward pass, whatever the (increasing) timestamps are.", "quantifier": "every strictly increasing timestamp list and every time-dependent transition model", "why_tests_cant": "the default timestamps of tests are 0,1,2,...; the claim is about all timestamp lists", "anchors": ["bayesloop/core.py: Study.fit", "bayesloop/transitionModels.py: computeBackwardPrior"]}
{"id": "C07", "title": "Every stored posterior is a probability distribution and means lie inside the grid", "statement": "If fit() ends with finite log-evidence, each stored posterior sums to one; and whenever the external interpolation and convolution routines return no negative numbers for non-negative input, it is non-negative and each posterior mean lies between the smallest and the largest grid value of that parameter. This holds for every transition model, including RegimeSwitch, NotEqual, AlphaStable, Deterministic and arbitrary nestings.", "quantifier": "every model, grid, prior and data series for which fit returns normally", "why_tests_cant": "normalisation must survive arbitrary model nestings and data; tests sample a few", "anchors": ["bayesloop/core.py: Study.fit, Study.getParameterMeanValues"]}
{"id": "C08", "title": "The fit modes agree on the evidence", "statement": "fit(), fit(forwardOnly=True) and fit(evidenceOnly=True) report the same log-evidence; evidenceOnly leaves the stored posterior sequence untouched and empties the mean values.", "quantifier": "every study state and data", "why_tests_cant": "universally quantified equality of three code paths", "anchors": ["bayesloop/core.py: Study.fit"]}
{"id": "C09", "title": "Impossible data yield evidence zero, and only impossible data do", "statement": "fit reports logEvidence = -inf exactly if the total probability of the data (path sum) is zero; in that case the call returns without error and does not update the mean values.", "quantifier": "every grid, prior, likelihood table and transition model of the linear kind", "why_tests_cant": "an if-and-only-if over all data; underflow-style cases are rarely tested", "anchors": ["bayesloop/core.py: Study.fit"]}
{"id": "C10", "title": "Missing data points are neutral", "statement": "A data point that contains NaN multiplies the evidence by one and leaves the filtering distribution of that time step equal to the predicted one; for a static model, deleting all missing points changes neither evidence nor the remaining posteriors. In multi-dimensional data only the missing components are ignored.", "quantifier": "every series with any pattern of missing values", "why_tests_cant": "exponentially many missing-value patterns", "anchors": ["bayesloop/observationModels.py: ObservationModel.processedPdf", "bayesloop/core.py: Study.fit"]}
{"id": "C11", "title": "Static model = one-shot Bayes, independent of data order", "statement": "With the Static transition model, all smoothed posteriors are equal to prior x product of all likelihoods (normalised), and evidence and final posterior do not depend on the order of the data.", "quantifier": "every permutation of every data series, every prior and grid", "why_tests_cant": "factorially many permutations", "anchors": ["bayesloop/transitionModels.py: Static", "bayesloop/core.py: Study.fit"]}
{"id": "C12", "title": "Likelihood scale only shifts the log-evidence", "statement": "Multiplying the likelihood of one data point by a positive constant multiplies the evidence by that constant and changes none of the posteriors.", "quantifier": "every constant, data point index and model (including non-linear transition models)", "why_tests_cant": "continuum of constants and all models", "anchors": ["bayesloop/core.py: Study.fit"]}
{"id": "C13", "title": "Forward local evidences multiply to the evidence", "statement": "The local evidences stored by fit(forwardOnly=True) are the predictive probabilities of each data point given the preceding ones, so their product is the evidence.", "quantifier": "every grid, lattice constant, prior and data series", "why_tests_cant": "holds trivially for lattice constant one; the claim is about all lattice constants", "anchors": ["bayesloop/core.py: Study.fit, Study.localEvidence"]}
{"id": "C14", "title": "Full-fit local evidence is the leave-one-out predictive probability", "statement": "After a full fit, localEvidence[i] is the probability of data point i given all other data points.", "quantifier": "every grid, lattice constant, prior, likelihood table (including zeros) and data series", "why_tests_cant": "depends on values of the likelihood being zero and on the lattice constant", "anchors": ["bayesloop/core.py: Study.fit, Study.localEvidence"]}
{"id": "C15", "title": "Fitting is repeatable", "statement": "Calling fit() twice in a row with unchanged data and models gives the same evidence, posteriors and means, and fit() does not modify the user-supplied prior.", "quantifier": "every study, prior kind and data", "why_tests_cant": "quantifies over all studies and histories of calls", "anchors": ["bayesloop/core.py: Study.fit, Study._computePrior"]}
{"id": "C16", "title": "The overall scale of an improper prior is irrelevant", "statement": "Multiplying the prior (array or function) by any positive constant does not change the result of fit().", "quantifier": "every prior and every positive constant", "why_tests_cant": "a single special scale (values summing to exactly one) breaks it", "anchors": ["bayesloop/core.py: Study._computePrior"]}
{"id": "C17", "title": "RegimeSwitch keeps a guaranteed minimal probability and is normalised", "statement": "The predicted distribution of RegimeSwitch sums to one, preserves the ordering of probabilities, gives every grid point at least the configured floor divided by the normalisation, and is the identity (up to normalisation) if all probabilities exceed the floor.", "quantifier": "every distribution, floor and lattice constant", "why_tests_cant": "the guarantee must hold for every distribution the forward pass can produce; a test checks one array and one value of log10pMin", "anchors": ["bayesloop/transitionModels.py: RegimeSwitch.computeForwardPrior"]}
{"id": "C18", "title": "NotEqual reverses the ordering and is normalised", "statement": "The predicted distribution of NotEqual sums to one and reverses the ordering of probabilities, for every non-uniform distribution; every grid point keeps at least the floor share.", "quantifier": "every distribution and floor", "why_tests_cant": "ranges over all distributions; the only failing one (uniform) is not what a test author picks", "anchors": ["bayesloop/transitionModels.py: NotEqual.computeForwardPrior"]}
{"id": "C19", "title": "GaussianRandomWalk redistributes probability without losing any", "statement": "The Gaussian random walk preserves total probability and non-negativity, leaves the uniform distribution unchanged, is symmetric (probability of i->j equals j->i), commutes with every other Gaussian random walk, acts only along its target axis, and is the identity for sigma = 0.", "quantifier": "every grid, axis, sigma, kernel radius (also larger than the grid) and distribution", "why_tests_cant": "boundary reflection has to be right for every kernel radius and grid size", "anchors": ["bayesloop/transitionModels.py: GaussianRandomWalk.computeForwardPrior"]}
{"id": "C20", "title": "SerialTransitionModel always selects the segment containing the time step", "statement": "For increasing break times the model active at time t is the one whose segment [b_k, b_k+1) contains t; the selection never fails, for any break times; the constructor accepts exactly the argument lists with increasing first values and n-1 breaks for n models.", "quantifier": "every argument list, number of breaks and time", "why_tests_cant": "ranges over all break-time configurations (also equal, unordered or outside the data) and all times; tests try one configuration", "anchors": ["bayesloop/transitionModels.py: SerialTransitionModel.__init__, computeForwardPrior, computeBackwardPrior"]}
{"id": "C21", "title": "CombinedTransitionModel is sequential composition", "statement": "A combined model applies its sub-models one after the other; nesting of combined models is irrelevant (associativity), combining with Static changes nothing, and fits with such rewritten models give identical results.", "quantifier": "every list of sub-models, arbitrarily nested", "why_tests_cant": "ranges over unboundedly deep nestings and all distributions; a test freezes the output of one combination", "anchors": ["bayesloop/transitionModels.py: CombinedTransitionModel"]}
{"id": "C22", "title": "A ChangePoint equals a static serial model with that change-point", "statement": "fit() with ChangePoint(t) and fit() with SerialTransitionModel(Static(), ChangePoint(t), Static()) give the same evidence and posteriors; several change-points in a serial model of Static sub-models equal the combination of the single ones.", "quantifier": "every data series, prior, timestamps and change-point times", "why_tests_cant": "equivalence of two implementations on all inputs", "anchors": ["bayesloop/transitionModels.py: ChangePoint, SerialTransitionModel"]}
{"id": "C23", "title": "Splitting a time-independent model by break-points changes nothing", "statement": "A SerialTransitionModel whose sub-models are all the same time-independent model, separated by break-points, fits exactly like that model alone.", "quantifier": "every model without explicit time dependence, every list of break times", "why_tests_cant": "ranges over all models and all lists of break-points of any length", "anchors": ["bayesloop/transitionModels.py: SerialTransitionModel"]}
{"id": "C24", "title": "Deterministic model shifts along the prescribed curve", "statement": "Starting at the first time step, the accumulated shift requested by a Deterministic model after n unit time steps equals f(n) - f(0); the backward shift undoes the forward shift of the same step; inside a SerialTransitionModel time is measured from the preceding break.", "quantifier": "every function, hyper-parameter value, number of steps and break time", "why_tests_cant": "telescoping over all numbers of steps", "anchors": ["bayesloop/transitionModels.py: Deterministic", "bayesloop/transitionModels.py: SerialTransitionModel"]}
{"id": "C25", "title": "Setting hyper-parameters writes exactly the named values", "statement": "Assigning a full list of hyper-parameter values to a nested transition model and reading it back returns the same list, provided the names are distinct; assigning selected hyper-parameters changes exactly these.", "quantifier": "every nesting of combined/serial models, every list of values and every selection", "why_tests_cant": "unbounded nesting depth", "anchors": ["bayesloop/core.py: Study._setAllHyperParameters, _setSelectedHyperParameters, _unpackAllHyperParameters, getHyperParameterValue", "bayesloop/helper.py: recursiveIndex, flatten, assignNestedItem"]}
{"id": "C26", "title": "Hyper-parameter names, values and priors are listed in the same order", "statement": "The flat lists of names, values and priors used to build the hyper-grid correspond entry by entry to the same hyper-parameter of the same sub-model.", "quantifier": "every nested transition model built with the constructors", "why_tests_cant": "ranges over all nestings of constructors and all five ways to pass values and priors; tests use one nesting", "anchors": ["bayesloop/core.py: Study._unpackHyperParameters, HyperStudy._unpackHyperPriors", "bayesloop/transitionModels.py: constructors"]}
{"id": "C27", "title": "Ambiguous hyper-parameter names are rejected before any computation", "statement": "fit() raises ConfigurationError if data, observation model or transition model are missing or if two hyper-parameters share a name, and it raises no such error otherwise.", "quantifier": "every study state", "why_tests_cant": "an if-and-only-if over all states of a study; tests try single missing settings", "anchors": ["bayesloop/core.py: Study._checkConsistency"]}
{"id": "C28", "title": "The hyper-grid contains every combination exactly once", "statement": "The hyper-grid enumerates the Cartesian product of all hyper-parameter values in C order, and the k-th prior value is the product of the individual prior values of the k-th combination; the prior integrates to one.", "quantifier": "every number of hyper-parameters and values", "why_tests_cant": "the grid is a Cartesian product of arbitrarily many hyper-parameters; tests use two", "anchors": ["bayesloop/core.py: HyperStudy._createHyperGrid"]}
{"id": "C29", "title": "HyperStudy evidence is the prior-weighted average of the individual evidences", "statement": "The evidence reported by HyperStudy.fit equals the sum over the hyper-grid of prior probability x evidence of the single fit; it therefore lies between the smallest and the largest individual evidence.", "quantifier": "every hyper-grid, prior and data", "why_tests_cant": "ranges over all hyper-grids, priors and evidences (including zero evidences); tests compare rounded numbers of one grid", "anchors": ["bayesloop/core.py: HyperStudy.fit"]}
{"id": "C30", "title": "HyperStudy posterior is the Bayesian model average", "statement": "The averaged posterior sequence is, at each time step, the mixture of the single-fit posteriors weighted by posterior hyper-parameter probabilities (up to the floor used against log(0)), and sums to one.", "quantifier": "every hyper-grid and data", "why_tests_cant": "ranges over all hyper-grids, priors and posteriors; tests compare rounded numbers of one grid", "anchors": ["bayesloop/core.py: HyperStudy.fit"]}
{"id": "C31", "title": "Hyper-parameter distribution follows Bayes rule and is normalised", "statement": "The hyper-parameter distribution is proportional to prior x evidence, integrates to one over the hyper-grid, and combinations with zero evidence get probability zero.", "quantifier": "every hyper-grid, prior and data with at least one positive evidence", "why_tests_cant": "ranges over all hyper-grids and priors; tests compare rounded numbers of one grid", "anchors": ["bayesloop/core.py: HyperStudy.fit"]}
{"id": "C32", "title": "The number of parallel jobs does not matter", "statement": "HyperStudy.fit(nJobs=n) gives the same evidence list, local evidences, averaged posterior, and hyper-parameter distribution for every n >= 1.", "quantifier": "every n and every hyper-grid", "why_tests_cant": "unbounded number of jobs and work splits", "anchors": ["bayesloop/core.py: HyperStudy.fit, HyperStudy._parallelFit"]}
{"id": "C33", "title": "HyperStudy.fit leaves the user model unchanged", "statement": "After HyperStudy.fit the hyper-parameter values of the transition model are the ones the user entered.", "quantifier": "every nested model with distinct names", "why_tests_cant": "ranges over all nestings, values (also arrays and the keyword all) and ways the fit can end", "anchors": ["bayesloop/core.py: HyperStudy.fit"]}
{"id": "C34", "title": "Marginal hyper-parameter distribution belongs to the right hyper-parameter", "statement": "getHyperParameterDistribution(name) returns, for each value of that hyper-parameter, the total probability of all grid combinations with this value; the returned probabilities sum to one.", "quantifier": "every number of hyper-parameters, grid sizes and position of the name", "why_tests_cant": "index arithmetic for every number of hyper-parameters and every shape; errors only show for particular shapes", "anchors": ["bayesloop/core.py: HyperStudy.getHyperParameterDistribution"]}
{"id": "C35", "title": "Queries do not change the study", "statement": "Calling getHyperParameterDistribution (or the joint version) twice returns the same values both times.", "quantifier": "every study and query sequence", "why_tests_cant": "ranges over all histories of calls; a test calls each query once", "anchors": ["bayesloop/core.py: HyperStudy.getHyperParameterDistribution, HyperStudy.getJointHyperParameterDistribution"]}
{"id": "C36", "title": "Joint hyper-parameter distribution respects the order of names", "statement": "getJointHyperParameterDistribution([a, b]) is the transpose of getJointHyperParameterDistribution([b, a]), and summing it over one argument gives the marginal distribution of the other.", "quantifier": "every shape and pair of names", "why_tests_cant": "index arithmetic for every shape and every order of names; errors only show for particular shapes (axes of length one)", "anchors": ["bayesloop/core.py: HyperStudy.getJointHyperParameterDistribution"]}
{"id": "C37", "title": "HyperStudy local evidence is determined by the inputs", "statement": "The averaged local evidence of HyperStudy.fit is a function of data and models only.", "quantifier": "every run, also those in which single fits stop early", "why_tests_cant": "depends on uninitialised memory in early-stopped fits", "anchors": ["bayesloop/core.py: HyperStudy.fit, Study.fit"]}
{"id": "C38", "title": "ChangepointStudy considers exactly the ordered combinations", "statement": "ChangepointStudy.fit analyses exactly those combinations whose change/break-points are strictly increasing; all other combinations get probability zero in the full-size distribution, and total prior mass and total posterior mass are preserved.", "quantifier": "every hyper-grid with any number of change/break-points", "why_tests_cant": "ranges over all grids and numbers of change-points; the number of combinations is unbounded", "anchors": ["bayesloop/core.py: ChangepointStudy.fit"]}
{"id": "C39", "title": "Duration distribution is a probability distribution and always available", "statement": "getDurationDistribution returns, for every pair of distinct change/break-points after a fit, the distribution of their distance, which sums to one.", "quantifier": "every change-point study", "why_tests_cant": "needs three or more change-points to fail", "anchors": ["bayesloop/core.py: ChangepointStudy.getDurationDistribution"]}
{"id": "C40", "title": "OnlineStudy equals batch filtering", "statement": "After feeding data points one by one with OnlineStudy.step, the parameter distribution and evidence of every transition model and hyper-parameter value equal those of Study.fit(forwardOnly=True) on the same data.", "quantifier": "every data series, every prefix, all transition models", "why_tests_cant": "ranges over all series, all prefixes and all models; a test compares one series", "anchors": ["bayesloop/core.py: OnlineStudy.step, Study.fit"]}
{"id": "C41", "title": "Transition-model probabilities follow Bayes rule", "statement": "The transition-model distribution of OnlineStudy is proportional to transition-model prior x accumulated evidence of the model and sums to one.", "quantifier": "every set of models, priors and data", "why_tests_cant": "ranges over all model sets, priors and series; with equal priors the error is invisible", "anchors": ["bayesloop/core.py: OnlineStudy.step, setTransitionModelPrior"]}
{"id": "C42", "title": "Marginalised online posterior is the evidence-weighted mixture", "statement": "The stored parameter posterior of OnlineStudy sums to one and is the mixture over hyper-parameters and transition models with their posterior weights.", "quantifier": "every data series, set of models and hyper-grids", "why_tests_cant": "ranges over all series, hyper-grids and sets of models", "anchors": ["bayesloop/core.py: OnlineStudy.step"]}
{"id": "C43", "title": "Online history has one entry per analysed data point", "statement": "With storeHistory, after n steps the posterior sequence, mean values, timestamps and all histories contain one entry per complete data segment (n - segmentLength + 1, never negative).", "quantifier": "every n and segment length, every history of calls", "why_tests_cant": "a statement about every history of steps, also with failing steps in between", "anchors": ["bayesloop/core.py: OnlineStudy.step"]}
{"id": "C44", "title": "Online query results are consistent between single time step and whole history", "statement": "OnlineStudy getters for one time step return the entry of the full-history getters, hyper-parameter probabilities sum to one, and the short alias getPD returns the same as getParameterDistribution.", "quantifier": "every time step, name and density flag", "why_tests_cant": "ranges over all states of a study and all pairs of queries; tests call one query per state", "anchors": ["bayesloop/core.py: OnlineStudy.getParameterDistribution, getPD, getParameterMeanValue, getHyperParameterDistribution"]}
{"id": "C45", "title": "Failed queries leave an OnlineStudy usable", "statement": "A query that raises PostProcessingError leaves the study in a state in which further data can be processed.", "quantifier": "every history of steps and failing queries", "why_tests_cant": "exception paths in all histories", "anchors": ["bayesloop/core.py: OnlineStudy.getParameterDistribution, OnlineStudy.step"]}
{"id": "C46", "title": "Complementary queries have probabilities adding to one", "statement": "For every arithmetic query, P(a > b) + P(a <= b) = 1 and P(a >= b) + P(a < b) = 1, and each lies between 0 and 1.", "quantifier": "every pair of expressions over parameters of normalised studies", "why_tests_cant": "ranges over all expressions and studies; the failing ones divide zero by zero", "anchors": ["bayesloop/parser.py: Parser.__call__"]}
{"id": "C47", "title": "Parameters of different studies are combined as independent", "statement": "An operation on parameters of different studies (or on one parameter at different time steps, or on a parameter and a hyper-parameter) yields each pair of values with the product of the probabilities; the result is normalised.", "quantifier": "all value lists and operations", "why_tests_cant": "ranges over all expressions, studies and times; independence is a statement about all joint probabilities", "anchors": ["bayesloop/parser.py: Parser._operation"]}
{"id": "C48", "title": "Parameters of the same study are combined with their joint distribution", "statement": "An operation on two parameters of the same study is evaluated under the joint distribution of these parameters at the requested times.", "quantifier": "all names and times", "why_tests_cant": "depends on combination of names and times", "anchors": ["bayesloop/parser.py: Parser._operation"]}
{"id": "C49", "title": "Derived distributions contain all probability", "statement": "The distribution returned for an arithmetic query sums to one.", "quantifier": "every derived parameter", "why_tests_cant": "loss occurs only at the edge bin", "anchors": ["bayesloop/parser.py: Parser.__call__"]}
{"id": "C50", "title": "Arithmetic is evaluated left to right within one precedence level", "statement": "A chain a o1 b o2 c ... of operators of equal precedence is evaluated as ((a o1 b) o2 c) ..., for every length.", "quantifier": "all chain lengths", "why_tests_cant": "ranges over expressions of any length; tests use two or three operands", "anchors": ["bayesloop/parser.py: Parser._evaluate"]}
{"id": "C51", "title": "cint and oint produce equally spaced values inside the interval", "statement": "cint(a,b,n) returns n equally spaced values from a to b inclusive, oint(a,b,n) n equally spaced values strictly between a and b; a grid built from them is recognised as regular with the right lattice constant.", "quantifier": "all a < b and n", "why_tests_cant": "ranges over all intervals and numbers of points", "anchors": ["bayesloop/helper.py: cint, oint", "bayesloop/core.py: Study.setObservationModel"]}
{"id": "C52", "title": "Sliding windows and timestamps stay aligned", "statement": "For N data points and segment length n, N-n+1 segments are analysed; segment i contains data i..i+n-1 and carries the timestamp of its last element.", "quantifier": "all N, n", "why_tests_cant": "ranges over all data lengths and window lengths, also windows longer than the data", "anchors": ["bayesloop/preprocessing.py: movingWindow", "bayesloop/core.py: Study.fit"]}
{"id": "C53", "title": "Timestamps always match the data after loading", "statement": "After any sequence of loadData calls there is exactly one timestamp per data point.", "quantifier": "every call history", "why_tests_cant": "needs a mismatching call after another one", "anchors": ["bayesloop/core.py: Study.loadData"]}
{"id": "C54", "title": "The order of setting models does not matter", "statement": "Setting observation model and transition model in either order, repeatedly, leads to the same lattice constants in the transition model, and set() accepts exactly at most one model of each kind.", "quantifier": "every sequence of set calls", "why_tests_cant": "ranges over all histories of setter calls; tests use the documented order", "anchors": ["bayesloop/core.py: Study.set, setObservationModel, setTransitionModel"]}
{"id": "C55", "title": "Marginal parameter distributions are consistent", "statement": "getParameterDistribution(t, name) sums (density=False) or integrates (density=True) to one, equals the sum of the joint posterior over all other parameters, and its mean is the stored posterior mean value.", "quantifier": "every grid shape, parameter and time step", "why_tests_cant": "ranges over all numbers of parameters, grid shapes and posteriors", "anchors": ["bayesloop/core.py: Study.getParameterDistribution, getParameterDistributions, getParameterMeanValues"]}
{"id": "C56", "title": "Bernoulli and Poisson likelihoods are probability mass functions", "statement": "For every admissible parameter value the Bernoulli and Poisson likelihoods are non-negative and sum to one over all observations.", "quantifier": "all parameter values", "why_tests_cant": "infinite sums, continuum of parameters", "anchors": ["bayesloop/observationModels.py: Bernoulli.pdf, Poisson.pdf"]}
{"id": "C57", "title": "Gaussian, Laplace, white-noise and AR likelihoods are probability densities", "statement": "For every admissible parameter value the likelihood, as a function of the (last) observation, is the textbook density: non-negative with integral one.", "quantifier": "all parameter values", "why_tests_cant": "integrals over the real line for a continuum of parameter values", "anchors": ["bayesloop/observationModels.py: Gaussian.pdf, Laplace.pdf, GaussianMean.pdf, WhiteNoise.pdf, AR1.pdf, ScaledAR1.pdf"]}
{"id": "C58", "title": "Optimisation never touches change- and break-points by default", "statement": "optimize() without arguments varies all hyper-parameters except change- and break-points and leaves those at the values of the user; after success the selection is cleared.", "quantifier": "every nested transition model", "why_tests_cant": "special case of models that contain only such points", "anchors": ["bayesloop/core.py: Study.optimize, _unpackSelectedHyperParameters, _setSelectedHyperParameters"]}
{"id": "C59", "title": "Cached convolution kernels are never stale", "statement": "AlphaStableRandomWalk and BivariateRandomWalk always use the kernel that belongs to the current hyper-parameters and the current grid.", "quantifier": "every history of hyper-parameter and grid changes", "why_tests_cant": "stale caches only show for particular histories (replacing the observation model between fits)", "anchors": ["bayesloop/transitionModels.py: AlphaStableRandomWalk.computeForwardPrior, BivariateRandomWalk.computeForwardPrior"]}
{"id": "C60", "title": "Simulated observation probabilities are normalised mixtures", "statement": "simulate(x, t) returns non-negative values summing to one that are proportional to the posterior-weighted likelihood of each x.", "quantifier": "all x, t and posteriors", "why_tests_cant": "ranges over all sets of observations, times and posteriors", "anchors": ["bayesloop/core.py: Study.simulate"]}
{"id": "C61", "title": "The evidence is a probability distribution over data sets", "statement": "For a fixed study (grid, prior, observation model, transition model, timestamps), the evidences exp(logEvidence) that fit reports for all possible data sets of a given length are non-negative and sum (discrete observations) or integrate (real-valued observations) to one; they are therefore comparable between models.", "quantifier": "all grids, normalised priors, timestamps, data lengths, normalised observation models (also with memory) and nested transition models", "why_tests_cant": "The statement sums over all data sets of every length; a test evaluates single data sets and cannot see a missing or superfluous constant factor in the evidence.", "anchors": ["bayesloop/core.py: Study.fit, Study._computePrior; bayesloop/transitionModels.py: all computeForwardPrior methods; bayesloop/observationModels.py: ObservationModel.processedPdf"]}
{"id": "C62", "title": "A study with default parameter values and default prior can be fitted", "statement": "If an observation model is created without parameter values and without prior, then loadData, set and fit work for all data to which the model applies: set chooses finite parameter values at which likelihood and prior are defined; the fit returns a positive evidence, namely the mean of the product of likelihoods over all parameter paths whose start follows the default prior.", "quantifier": "all data sets (also with missing observations), all built-in observation models, all transition models and fit modes", "why_tests_cant": "Whether a default grid touches a singularity of the default prior or degenerates depends on the data; the tests pass explicit parameter values or use one fixed data set.", "anchors": ["bayesloop/observationModels.py: estimateParameterValues and jeffreys of all models; bayesloop/core.py: Study.loadData, Study.set, Study.setObservationModel, Study._computePrior, Study.fit"]}
{"id": "C63", "title": "The local distribution of transition models weighs the newest data point only", "statement": "In an OnlineStudy with several transition models, the local distribution of transition models after a step (getTransitionModelDistribution with local=True) is the prior of the models multiplied by the predictive probability of the newest data point under each model (evidence after the step divided by evidence before it), normalised; the reported names are those of the models.", "quantifier": "every history of steps, every set of transition models with and without hyper-parameters, every data point", "why_tests_cant": "The ratio of evidences depends on the whole history of data; a test compares a few steps with stored numbers, and cannot tell a wrong reference evidence from the right one.", "anchors": ["bayesloop/core.py: OnlineStudy.step, OnlineStudy.getTransitionModelDistribution, getTransitionModelProbability"]}
{"id": "C64", "title": "Reported mean values are the means of the reported distributions", "statement": "All mean values that an OnlineStudy reports (of parameters at one or all times, current ones, and of hyper-parameters) are the expectation values under the distributions which the study reports for the same parameter and the same time.", "quantifier": "every history of steps, every parameter or hyper-parameter, every time", "why_tests_cant": "relates two queries in every reachable state; the tests look at single numbers of one history", "anchors": ["bayesloop/core.py: OnlineStudy.getParameterMeanValue(s), getCurrentParameterMeanValue, getHyperParameterMeanValue(s), getParameterDistribution, getCurrentParameterDistribution, getHyperParameterDistributions"]}
{"id": "C65", "title": "Default priors are Jeffreys priors", "statement": "If no prior is given, the observation models Bernoulli, Poisson, Gaussian, Laplace and WhiteNoise use the Jeffreys prior of their parameters, i.e. a prior proportional to the square root of the determinant of the Fisher information of one observation. The flat default prior of GaussianMean is the Jeffreys prior as well.", "quantifier": "all admissible parameter values", "why_tests_cant": "relates a formula in the code to integrals and sums over all observations, for every parameter value; a test evaluates the formula at a few points", "anchors": ["bayesloop/observationModels.py: Bernoulli.jeffreys, Poisson.jeffreys, Gaussian.jeffreys, Laplace.jeffreys, WhiteNoise.jeffreys, GaussianMean"]}
{"id": "C66", "title": "Prior for auto-regressive processes", "statement": "computeJeffreysPriorAR1 returns, for a study with model AR1 or ScaledAR1 and a grid of stationary processes, the normalised Jeffreys prior of the exact likelihood of the loaded data, times the probability density of the first data point. For other models, for grids with a correlation of absolute value one or more, and without data it raises a ConfigurationError.", "quantifier": "all grids, all data sets, all time steps", "why_tests_cant": "relates a formula in the code to integrals over all data sets of every length", "anchors": ["bayesloop/jeffreys.py: computeJeffreysPriorAR1; bayesloop/observationModels.py: AR1, ScaledAR1"]}
{"id": "C67", "title": "Parameters of user-defined observation models", "statement": "In observation models made from scipy.stats or sympy.stats distributions every named parameter receives the values of its own axis of the parameter grid, in whatever order the parameters are listed; fixed parameters receive their fixed values, and no other arguments are passed. Names that are no free parameter of the distribution are rejected with a ConfigurationError. A SymPy model that leaves out a free symbol never yields a likelihood. In models made from Python functions the arguments receive the grid values in the order of the listed parameters; functions with a wrong number of arguments or without the argument data are rejected.", "quantifier": "all distributions (any number of shape parameters), all lists of parameters in any order, all fixed parameters, grid points and observations", "why_tests_cant": "ranges over all distributions and all orders of parameters; a test lists the parameters of one distribution in one order", "anchors": ["bayesloop/observationModels.py: NumPy, SciPy, SymPy; bayesloop/helper.py: freeSymbols"]}
{"id": "C68", "title": "Prior of SymPy observation models", "statement": "An observation model made from a sympy.stats distribution uses the prior passed by the user; if none is passed, the Jeffreys prior of the distribution, provided that it can be determined; with determineJeffreysPrior=False a flat prior.", "quantifier": "all distributions, all keyword arguments", "why_tests_cant": "a failing determination is reported by a printed warning only and the fit succeeds with another prior; tests of the fit fix the resulting numbers", "anchors": ["bayesloop/observationModels.py: SymPy.__init__; bayesloop/jeffreys.py: getJeffreysPrior"]}
{"id": "C69", "title": "The evidence of a data set is the total evidence of its continuations", "statement": "For every observation model whose likelihoods sum or integrate to one over all possible observations, the evidence of a data set equals the evidence of this data set with one further observation, summed or integrated over all values of this observation, at whatever time it is made. Hence ratios of evidences are predictive probabilities.", "quantifier": "all data sets of any length, all transition models and nestings, all priors, all timestamps, forward-only and evidence-only fits", "why_tests_cant": "an integral over all possible observations for every data set; no test can evaluate it", "anchors": ["bayesloop/core.py: Study.fit; bayesloop/observationModels.py: pdf"]}
{"id": "C70", "title": "Data that are possible for all parameter values can always be fitted", "statement": "If every observation is possible for every parameter value of the grid and neither the prior nor the transition model excludes any parameter value, then Study.fit succeeds in every mode, for every number of data points and all time stamps: the evidence of the model is finite (its logarithm is not minus infinity), every local evidence is positive, and the posterior distribution of every time step is positive everywhere and sums to one. In particular, this holds for the built-in observation models with their default priors, whatever the data (missing data points included).", "quantifier": "all grids, all priors without zeros, all transition models (nested ones included) other than NotEqual, all data, all time stamps, all fit modes", "why_tests_cant": "the division by a vanishing normalisation or the logarithm of zero shows up only for particular combinations of model, data and time stamps", "anchors": ["bayesloop/core.py Study.fit; bayesloop/transitionModels.py *; bayesloop/observationModels.py processedPdf"]}
{"id": "C71", "title": "An online study and a hyper-study agree on the same data", "statement": "Feeding data points one by one to an OnlineStudy gives, for each of its transition models with a grid of hyper-parameter values, the result of HyperStudy.fit(forwardOnly=True) with the same transition model on the same data: the same hyper-parameter distribution, the same evidence for each combination of hyper-parameter values, the same posterior distribution for the last time step and the same model evidence.", "quantifier": "all data sequences, all grids of hyper-parameter values and hyper-priors, all transition models that do not depend on time, any number of other transition models in the online study, any number of jobs", "why_tests_cant": "two implementations (incremental and batch) must agree on every history of data", "anchors": ["bayesloop/core.py OnlineStudy.step, HyperStudy.fit"]}
{"id": "C72", "title": "Query texts are read with the usual rules of arithmetic", "statement": "The text of a query passed to eval() or to a Parser object is understood as usual: functions apply to the expression in parentheses behind them, name@time refers to a parameter at a time stamp, powers are computed first and from the right, then signs, then products and quotients from the left, then sums and differences from the left; parentheses override this order and blanks do not matter. A query with one relational operator gives the probability of the relation between the two written expressions, a query without gives the distribution of the written expression, a query that cannot be understood is rejected.", "quantifier": "all texts: all expressions of any depth, all decimal numbers, all placements of blanks and parentheses, all names of parameters and functions", "why_tests_cant": "there are infinitely many texts for each expression; tests cover a few queries without nested precedence", "anchors": ["bayesloop/parser.py Parser.__init__, Parser.__call__; bayesloop/core.py Study.eval"]}
{"id": "C73", "title": "Data analysed backwards", "statement": "For a transition model without directed or time-dependent parts and the flat default prior, a study of the series in reversed order reports the same evidence and, in the default mode, the same posterior distributions in reversed order, whatever the timestamps are; with one structural break, the study of the reversed series with the break at the mirrored position does.", "quantifier": "every series, every grid, every combination of the undirected transition models, all timestamps; serial models with one break at every position", "why_tests_cant": "ranges over all series, models and break positions; a test compares a handful of rounded numbers for one series and cannot tell a symmetry from a coincidence", "anchors": ["bayesloop/core.py: Study.fit, Study._computePrior", "bayesloop/transitionModels.py: GaussianRandomWalk.computeForwardPrior, GaussianRandomWalk.computeBackwardPrior, AlphaStableRandomWalk, ChangePoint, SerialTransitionModel.computeBackwardPrior, CombinedTransitionModel"]}
{"id": "C74", "title": "Data analysed in portions", "statement": "For constant parameters the data can be analysed in two portions: if the last posterior distribution of a first study is given as (array) prior to a second one, the second study ends with the posterior distribution of the analysis of all data, and the evidences of the two studies multiply to the evidence of all data.", "quantifier": "all data, all ways to split them into two portions, all grids and priors, all fitting modes", "why_tests_cant": "ranges over all splits, priors and grids; the factor by which the code misses depends on whether an array sums to exactly one", "anchors": ["bayesloop/core.py: Study.fit, Study._computePrior", "bayesloop/transitionModels.py: Static"]}
{"id": "C75", "title": "Results do not depend on the units of the data", "statement": "If the data are converted to another unit (multiplied by a positive factor, and shifted for observation models with a location parameter), and the parameter values, the prior and the hyper-parameters with them, then all posterior distributions stay the same, the mean values are converted, and the evidence is divided by the factor once for every measured value.", "quantifier": "every factor and offset, all data (also with missing values and several series), all grids, all observation models for real-valued data, all transition models and combinations of them, all priors and fitting modes", "why_tests_cant": "ranges over all units, data and nested models; a lattice constant that is used at a wrong place goes unnoticed in tests with one grid", "anchors": ["bayesloop/core.py: Study.fit, Study._computePrior", "bayesloop/transitionModels.py: GaussianRandomWalk.computeForwardPrior, AlphaStableRandomWalk, Deterministic, BivariateRandomWalk, RegimeSwitch, NotEqual, ChangePoint", "bayesloop/observationModels.py: Gaussian, Laplace, GaussianMean, WhiteNoise, AR1, ScaledAR1"]}
{"id": "C76", "title": "Order and sign convention of the parameters do not matter", "statement": "If the parameters of a study are listed in another order, or a parameter is replaced by its mirror image (o - theta instead of theta), and grid, prior, observation model and transition model are changed accordingly, then the evidence and the local evidences stay the same, every posterior distribution has the same value at the corresponding point, and the mean values are the same up to the mirror image. In particular, mirroring the data (x to o - x; exchanging success and failure for Bernoulli data; changing the sign for models of fluctuations around zero) mirrors the posterior distributions of the location parameter and leaves the evidence unchanged.", "quantifier": "every number of parameters, every permutation of them and every choice of mirrored parameters, all grids, data, priors, transition models and combinations of them, and all fitting modes", "why_tests_cant": "ranges over all permutations, data and nested models; an asymmetric boundary treatment or a kernel that is off by one grid point goes unnoticed in tests that compare one rounded number", "anchors": ["bayesloop/core.py: Study.fit, Study._computePrior", "bayesloop/transitionModels.py: GaussianRandomWalk.computeForwardPrior, AlphaStableRandomWalk, Deterministic, BivariateRandomWalk, RegimeSwitch, NotEqual, ChangePoint, SerialTransitionModel", "bayesloop/observationModels.py: Bernoulli, Gaussian, Laplace, GaussianMean, WhiteNoise, AR1, ScaledAR1"]}
{"id": "C77", "title": "Independent parameters are inferred independently", "statement": "If the parameters of a study form two groups with independent priors (flat, random variables, or functions that are not yet normalised on the grid), each likelihood is a product of a function of the first group and a function of the second group, and every random walk concerns a single parameter (change-points and break-points are common), then the joint study has as evidence the product of the evidences of two separate studies, as posterior distributions the products of the separate ones, and the mean values and (for likelihoods without zeros) products of local evidences of the separate studies. In particular, parameters that do not occur in the likelihood change neither the evidence nor the results for the other parameters.", "quantifier": "all numbers of parameters and ways to divide them in two groups, all grids, lattice constants, likelihoods, timestamps, fitting modes and models built from Static, GaussianRandomWalk, ChangePoint, Independent, CombinedTransitionModel and SerialTransitionModel in any nesting", "why_tests_cant": "ranges over all joint grids, likelihoods and nested models; a filter applied along the wrong axis or a normalisation over one axis only gives plausible numbers in a test", "anchors": ["bayesloop/core.py: Study.fit, Study._computePrior", "bayesloop/transitionModels.py: GaussianRandomWalk.computeForwardPrior, ChangePoint, Independent, CombinedTransitionModel, SerialTransitionModel"]}
{"id": "C78", "title": "The order in which hyper-parameter values are listed, and values of probability zero, do not matter", "statement": "Two hyper-studies on the same data whose transition models differ only in the entered hyper-parameter values and hyper-priors, such that every hyper-parameter takes the same values with the same prior probabilities apart from the order in which they are listed and from values of prior probability zero, find the same evidence, the same averaged posterior distributions and mean values, the same local evidences, and the same posterior probability for every combination of values.", "quantifier": "all nested transition models built with the constructors, all numbers of hyper-parameters, all lists of values and hyper-priors, data, fitting modes and numbers of jobs", "why_tests_cant": "ranges over all pairs of value lists, including unequally spaced ones, for which the code switches to another grid constant; a unit test compares with numbers computed for one fixed list", "anchors": ["bayesloop/core.py: HyperStudy.fit, HyperStudy._createHyperGrid, HyperStudy._parallelFit"]}
{"id": "C79", "title": "Results do not depend on the choice of the time axis", "statement": "Let the time stamps of the data and all change-points and break-points of the transition model be moved to a new time axis by an order-preserving map (another origin, another unit, another calendar). The transition model must not contain Deterministic models, whose functions depend on the numerical value of time. Then a fit in any mode stores the same evidence, local evidences, posterior distributions and mean values, or fails with the same error.", "quantifier": "all strictly increasing maps of the time axis, all nested transition models without Deterministic, all priors, data, time stamps and fitting modes", "why_tests_cant": "There are infinitely many maps and models; tests use one time axis, usually 0, 1, 2, ...", "anchors": ["bayesloop/transitionModels.py:ChangePoint", "bayesloop/transitionModels.py:SerialTransitionModel", "bayesloop/transitionModels.py:BreakPoint", "bayesloop/core.py:Study.fit", "bayesloop/core.py:Study.load"]}
{"id": "C80", "title": "The evidence lies between the products of the smallest and the largest likelihoods", "statement": "If the likelihood of every data point lies between two bounds for all parameter values on the grid, the model evidence lies between the product of the lower bounds and the product of the upper bounds. In particular no transition model can achieve a larger evidence than the product of the largest likelihoods.", "quantifier": "all transition models and nestings that map probability distributions to probability distributions, all proper priors, data, time stamps and fitting modes", "why_tests_cant": "The bound has to hold for every data set and every model; a test compares single numbers.", "anchors": ["bayesloop/core.py:Study.fit", "bayesloop/transitionModels.py:ChangePoint", "bayesloop/transitionModels.py:RegimeSwitch", "bayesloop/transitionModels.py:GaussianRandomWalk"]}
{"id": "C81", "title": "Small errors of the likelihood lead to small errors of the results", "statement": "For transition models assembled from Static, GaussianRandomWalk, ChangePoint, Independent, CombinedTransitionModel and SerialTransitionModel: if the likelihoods of two data sets (or of an exact and a rounded likelihood) differ at time step i for all parameter values at most by the factors r_i and s_i, the evidences differ at most by the products of these factors, and the posterior probability of every parameter value at every time step at most by the product of the ratios s_i/r_i (forward-only fits: of the time steps up to this one). In particular larger likelihoods never lead to a smaller evidence.", "quantifier": "all models of the named kinds and nestings, all numbers and dimensions of parameters, proper priors, data and factors; full fits with time stamps in steps of one and, if there are resets, a flat prior", "why_tests_cant": "Perturbations of the likelihood range over a continuum, and the bound has to hold for all of them together.", "anchors": ["bayesloop/core.py:Study.fit", "bayesloop/observationModels.py:ObservationModel.processedPdf", "bayesloop/transitionModels.py:CombinedTransitionModel", "bayesloop/transitionModels.py:SerialTransitionModel"]}
{"id": "C82", "title": "A full fit and a forward-only fit agree at the last time step", "statement": "The posterior distribution that a full fit stores for the last time step is the one that a forward-only fit stores, and the mean values of the parameters at the last time step agree, because there is no later data.", "quantifier": "all transition models, also non-linear ones, all priors, data and time stamps for which both fits return (mean values: non-zero evidence)", "why_tests_cant": "The backward pass runs through code of its own for every transition model; the claim concerns all models and data.", "anchors": ["bayesloop/core.py:Study.fit", "bayesloop/transitionModels.py:TransitionModel"]}
{"id": "C83", "title": "The order of random walks in a combination does not matter", "statement": "If the sub-models of a CombinedTransitionModel are random walks (GaussianRandomWalk, Static, and combinations and serial models of these without change-points), their order does not matter: a fit in any mode has the same outcome (stored results or error). This also holds for combinations that are nested in other models.", "quantifier": "all permutations, at any depth of any nested transition model, all grids, priors, data, time stamps and fitting modes", "why_tests_cant": "There are arbitrarily many orders and nestings, and filters with reflecting boundaries commute only because of their symmetry.", "anchors": ["bayesloop/transitionModels.py:CombinedTransitionModel", "bayesloop/transitionModels.py:GaussianRandomWalk.computeForwardPrior", "bayesloop/transitionModels.py:SerialTransitionModel"]}
{"id": "C84", "title": "Parts of a transition model without effect can be left out", "statement": "A change-point at a time that does not occur in the data, a Gaussian random walk of width zero, and the unused segments of a serial model whose break-points all lie outside of the data have no effect: the fit has the same outcome (stored results or error) as with the Static model, or the segment that is used, in their place, at any depth of a nested transition model.", "quantifier": "all nested transition models, any number of such parts, all grids, priors, data, time stamps and fitting modes", "why_tests_cant": "The claim concerns all positions of change-points outside of the data and all nestings.", "anchors": ["bayesloop/transitionModels.py:ChangePoint", "bayesloop/transitionModels.py:GaussianRandomWalk.computeForwardPrior", "bayesloop/transitionModels.py:SerialTransitionModel.computeForwardPrior", "bayesloop/transitionModels.py:SerialTransitionModel.computeBackwardPrior", "bayesloop/core.py:Study.fit"]}
{"id": "C85", "title": "A hyper-study with a single combination of values is a plain study", "statement": "If every hyper-parameter has a single value (entered as a number, as a list with one element, or as the keyword \"all\" for data with two points), HyperStudy.fit has the same outcome as Study.fit with these numbers: the same evidence, local evidences, posterior distributions and mean values; and the hyper-parameter distribution assigns probability one to the only combination.", "quantifier": "all nested transition models, hyper-priors, priors, data, fitting modes, numbers of jobs and previous states of the study", "why_tests_cant": "The shortcut for one combination is separate code whose effect depends on the form of every entered value and on earlier fits of the same study.", "anchors": ["bayesloop/core.py:HyperStudy.fit", "bayesloop/core.py:HyperStudy._createHyperGrid", "bayesloop/core.py:Study.fit", "bayesloop/transitionModels.py:GaussianRandomWalk.computeForwardPrior", "bayesloop/transitionModels.py:ChangePoint"]}
{"id": "C86", "title": "A change-point study without excluded combinations is a hyper-study", "statement": "If all combinations of the entered values have the change-points (or break-points) in increasing order, in particular if there is only one of them, ChangepointStudy.fit and HyperStudy.fit store the same results: evidence, local evidences, averaged posterior distributions, mean values, list of evidences and hyper-parameter distribution.", "quantifier": "all transition models accepted by ChangepointStudy, all entered values and hyper-priors, priors, data, fitting modes and numbers of jobs, more than one combination", "why_tests_cant": "The change-point study filters, rescales and re-inserts the grid of combinations; this has to be neutral for every grid.", "anchors": ["bayesloop/core.py:ChangepointStudy.fit", "bayesloop/core.py:HyperStudy.fit", "bayesloop/core.py:HyperStudy._createHyperGrid"]}
{"id": "C87", "title": "Jeffreys prior of SymPy distributions", "statement": "getJeffreysPrior(rv) returns the function which assigns the square root of the determinant of the Fisher information of one observation to the parameter values, with the arguments in the order of the free symbols (their order does not matter otherwise). It raises an exception exactly if the parameters are redundant everywhere. For the distributions of the built-in models it agrees with their default priors up to a constant factor.", "quantifier": "every distribution with a Fisher information: discrete or continuous, any number of parameters, any support, all admissible parameter values", "why_tests_cant": "an identity of functions and of infinite sums or integrals, for every distribution; a test compares one expression", "anchors": ["bayesloop/jeffreys.py:getJeffreysPrior", "bayesloop/helper.py:freeSymbols", "bayesloop/observationModels.py:jeffreys"]}
{"id": "C88", "title": "The Jeffreys prior does not depend on the choice of the parameters", "statement": "If the same family of distributions is described by other parameters, the functions returned by getJeffreysPrior for the two descriptions differ by the functional determinant of the change of parameters, so that every set of distributions gets the same prior weight; the exception is raised for both descriptions or for none.", "quantifier": "all pairs of descriptions of a family of distributions related by a differentiable change of parameters, any number of parameters, all measurable sets of parameter values", "why_tests_cant": "ranges over all distributions and all changes of parameters; weights are integrals", "anchors": ["bayesloop/jeffreys.py:getJeffreysPrior"]}
{"id": "C89", "title": "Studies do not influence each other", "statement": "Whatever is done with other Study objects (loading data, setting models, fitting) and in whatever order the calls are mixed, the results of a study (exceptions, evidence, posteriors, mean values, local evidences, prior) are the same as if the other studies did not exist; also if models are shared between studies.", "quantifier": "all sessions: any number of studies, calls in any order and number, any sharing of model objects between studies (also of parts of combined and serial models)", "why_tests_cant": "ranges over all interleavings of calls of unboundedly many studies and over all ways to share objects; tests create one study at a time", "anchors": ["bayesloop/core.py:Study.setTransitionModel", "bayesloop/core.py:Study.setObservationModel", "bayesloop/core.py:Study.fit", "bayesloop/transitionModels.py:CombinedTransitionModel.computeForwardPrior", "bayesloop/transitionModels.py:SerialTransitionModel.computeForwardPrior"]}
{"id": "C90", "title": "Transition-model objects can be used again", "statement": "A transition-model object carries no state of earlier use: after any session, when data, observation model and transition model of a study are set, fit gives what it gives with newly created transition-model objects, even if the model or its parts were used before in other studies, with other grids or inside combined and serial models.", "quantifier": "all sessions before the fit, all transition models (nested to any depth), data and observation models", "why_tests_cant": "ranges over all histories of use of an object; the state (back-pointer to the study, lattice constants, time offset, kernel cache) is invisible to the user and to tests", "anchors": ["bayesloop/core.py:Study.setTransitionModel", "bayesloop/transitionModels.py:SerialTransitionModel.computeForwardPrior", "bayesloop/transitionModels.py:AlphaStableRandomWalk.computeForwardPrior", "bayesloop/transitionModels.py:BivariateRandomWalk.computeForwardPrior", "bayesloop/transitionModels.py:Deterministic.computeForwardPrior"]}
{"id": "C91", "title": "Finer grids converge to inference on the continuous parameter space", "statement": "When the parameter grid of a study (values made with cint or oint) is made finer and finer, the results of fit converge to those of exact Bayesian inference on the continuous parameter space: the evidence to the probability density of the data, the stored distributions divided by the cell volume (uniformly) to the densities of the parameters, the stored mean values to their mean values, and expected values of functions of the parameters to their exact conditional expected values. A Gaussian random walk becomes the random walk with normally distributed steps (cut off at four standard deviations) that is reflected at the ends of the parameter range.", "quantifier": "all dimensions, boxes, sequences of grids whose numbers of values grow without bound, continuous likelihoods and priors, transition models (also nested), numbers of data points and times", "why_tests_cant": "a limit over infinitely many grids; a test compares the numbers of one grid", "anchors": ["bayesloop/core.py:Study.fit", "bayesloop/core.py:Study._computePrior", "bayesloop/transitionModels.py:GaussianRandomWalk.computeForwardPrior", "bayesloop/transitionModels.py:RegimeSwitch.computeForwardPrior", "bayesloop/transitionModels.py:NotEqual.computeForwardPrior", "bayesloop/transitionModels.py:ChangePoint.computeForwardPrior", "bayesloop/helper.py:cint", "bayesloop/helper.py:oint"]}
{"id": "C92", "title": "Plots show the reported results", "statement": "plot(name) of any study draws an image in which the point at a time stamp and a parameter value has exactly the brightness (after gamma correction; probabilities more than 20 orders of magnitude below the largest are shown as zero) that belongs to the probability reported by getParameterDistributions for this time and value, and a curve through exactly the reported mean values; plot(name, t) draws exactly the distribution returned by getParameterDistribution; for hyper-parameters there is, over every value, a bar whose height is its reported probability (in joint charts over every pair of values), bars do not overlap, and axes carry the right names; for transition models of an online study the curve shows the reported probabilities.", "quantifier": "all studies, names, grids, time stamps, posteriors, hyper-parameter values, gamma exponents and, for online studies, all histories of calls", "why_tests_cant": "tests of plotting code only check that no exception is raised; what a picture shows depends on the spacing of all grid values and time stamps", "anchors": ["bayesloop/core.py:Study.plot", "bayesloop/core.py:Study.plotParameterEvolution", "bayesloop/core.py:Study.getParameterDistribution", "bayesloop/core.py:HyperStudy.plot", "bayesloop/core.py:HyperStudy.getHyperParameterDistribution", "bayesloop/core.py:HyperStudy.getJointHyperParameterDistribution", "bayesloop/core.py:ChangepointStudy.getDurationDistribution", "bayesloop/core.py:OnlineStudy.plot", "bayesloop/core.py:OnlineStudy.plotParameterEvolution", "bayesloop/core.py:OnlineStudy.plotHyperParameterEvolution"]}
{"id": "C93", "title": "Plotting does not change the study", "statement": "A call of plot leaves all stored results as they are: queries return the same values afterwards, further data points of an online study are processed as without the plot, and the same plot made again shows the same.", "quantifier": "all studies, states, names, times and histories of plots", "why_tests_cant": "in-place changes of arrays only show for particular numbers of parameters and magnitudes of values", "anchors": ["bayesloop/core.py:Study.plotParameterEvolution", "bayesloop/core.py:HyperStudy.plot", "bayesloop/core.py:OnlineStudy.plotParameterEvolution", "bayesloop/core.py:OnlineStudy.plot"]}
{"id": "C94", "title": "A failed plot leaves an online study usable", "statement": "If plot raises an exception (unknown name, unknown time step, too few time steps), the online study afterwards returns the same results and accepts further data points as if the call had not been made.", "quantifier": "all states of an online study, names and times", "why_tests_cant": "a statement about every history of calls with exceptions in between", "anchors": ["bayesloop/core.py:OnlineStudy.plotParameterEvolution", "bayesloop/core.py:OnlineStudy.plot", "bayesloop/core.py:OnlineStudy.step", "bayesloop/core.py:OnlineStudy.getParameterMeanValues"]}
{"id": "C95", "title": "From the calls of the user to exact answers", "statement": "On a new study, let loadData, setObservationModel and setTransitionModel be called in any order and any number of times without exception, with explicit parameter values in the last observation model (evenly spaced, or clearly unevenly), and a last transition model assembled from Static, GaussianRandomWalk, ChangePoint, Independent, Combined and Serial. Then fit() succeeds, and only what was passed last matters: getParameterDistribution(t, name) returns the values passed for this parameter with, for each, the total probability of all parameter paths that have this value at time t given all data (prior x transition probabilities x likelihood of the data window that ends at t), getParameterMeanValues(name) the corresponding expectations, and the evidence is the sum over all paths. Random-walk widths are measured in units of the distance between neighbouring values. This holds for time stamps that increase by one and models without resets or flat priors; with forwardOnly=True for all distinct time stamps, given the data up to t. For the built-in observation models of real-valued data and for Poisson the likelihoods are the textbook densities, and no data sequence fails.", "quantifier": "all sequences of configuration calls, data, time stamps, parameter values, priors, transition models and observation models", "why_tests_cant": "a statement about every sequence of calls and the exact probabilities for every data set; tests compare single results", "anchors": ["bayesloop/core.py: Study.loadData, Study.setObservationModel, Study.setTransitionModel, Study.fit, Study.getParameterDistribution, Study.getParameterMeanValues, Study._computePrior", "bayesloop/preprocessing.py: movingWindow", "bayesloop/observationModels.py: ObservationModel.processedPdf", "bayesloop/transitionModels.py: computeForwardPrior, computeBackwardPrior"]}
{"id": "C96", "title": "More data find the true parameter values", "statement": "With the static transition model and independent data drawn from the distribution that the observation model assigns to one point of the parameter grid, different from the distributions of all other points, and positive prior probability of this point: with probability one, fits of more and more data points find it. For every tolerance there is a number of data points from which on the posterior probability of the true point is above 1 - tolerance, and the reported mean values differ from the true ones by at most this fraction of the parameter range, at all time steps (with forwardOnly=True at the last). The probability of not having found it decreases at least geometrically with the number of data points. For Gaussian, Laplace, WhiteNoise, Poisson and Bernoulli it suffices that the parameter values are pairwise different and admissible.", "quantifier": "all grids, priors, time stamps, observation models with a density and all infinite sequences of independent data outside a set of probability zero", "why_tests_cant": "a statement about infinite random sequences; a test sees finitely many simulated data sets", "anchors": ["bayesloop/core.py: Study.fit, Study.getParameterMeanValues", "bayesloop/transitionModels.py: Static", "bayesloop/observationModels.py: Gaussian, Laplace, WhiteNoise, Poisson, Bernoulli"]}
{"id": "C97", "title": "Saving and loading a study", "statement": "bayesloop.save(file, S) followed by bayesloop.load(file), in the same or another Python process and with any other calls in between, gives a study with the same results, which afterwards behaves as S would have done directly after saving: every further call (loadData, set, fit) on the loaded study gives the same results and exceptions. The loaded study is independent: calls on it do not change any other study, in particular not S, and calls on other studies do not change it, also if S shares models with other studies.", "quantifier": "all histories of calls before saving, between saving and loading, and after loading, on any number of studies with shared model objects", "why_tests_cant": "ranges over all histories of all studies; wrong references after loading only show for particular later calls", "anchors": ["bayesloop/fileIO.py: save, load", "bayesloop/core.py: Study.loadData, Study.setObservationModel, Study.setTransitionModel, Study.fit", "bayesloop/transitionModels.py: CombinedTransitionModel, SerialTransitionModel"]}
{"id": "C98", "title": "Reported probabilities are calibrated and mean values are the best estimates", "statement": "If the parameter path is drawn from the prior and the transition model, and the data points from the distributions that the observation model assigns to the parameter values, then the reported results are what can be said about the parameter values at each time step after having seen the data (full fit with unit-spaced time stamps: all data; forwardOnly=True: the data up to the time step). The reported probabilities are the conditional probabilities given the data; among all cases with a reported probability between l and u the event occurs in a fraction between l and u; sets of parameter values that are chosen after looking at the data and have a reported probability of at least l contain the true value with probability at least l (credible regions); the reported mean values are the conditional expectations, and no other estimate computed from the data has a smaller mean squared error.", "quantifier": "all grids, priors, linear transition models, observation models with a density, time stamps, all numbers of data points, all sets of parameter values and all rules to estimate or to choose a set", "why_tests_cant": "a statement about the average over infinitely many data sets and about all possible estimators", "anchors": ["bayesloop/core.py: Study.fit, Study.getParameterDistribution, Study.getParameterMeanValues", "bayesloop/transitionModels.py", "bayesloop/observationModels.py"]}
{"id": "C99", "title": "Comparing models by their evidence", "statement": "If data are drawn according to one model, the probability that the evidence of another model is at least B times as large (a Bayes factor of at least B in favour of the wrong model) is at most 1/B, whatever the other model is. If one of several models is drawn with given probabilities and then data according to it, the conditional probability of a model given the data is proportional to its probability times the evidence reported by fit(), and no rule to guess the model from the data is right more often than selecting a model for which this product (for equal probabilities: the evidence) is largest.", "quantifier": "all models (grids, proper priors, linear transition models, observation models with a density) for which the evidence is exact (C01, C02), all numbers of data points and time stamps, all rules to guess a model", "why_tests_cant": "a statement about the average over infinitely many data sets and about all possible rules", "anchors": ["bayesloop/core.py: Study.fit, Study.logEvidence"]}
{"id": "C100", "title": "Hyper-parameter distributions and averaged posteriors of a HyperStudy are calibrated", "statement": "If one combination of the hyper-parameter values on the hyper-grid is drawn with its prior probability, then a parameter path from the prior and the transition model with these values, then the data points, then the distribution of the hyper-parameters reported by HyperStudy.fit is the conditional distribution of the drawn combination given the data: among all data sets for which a set of combinations gets a probability between l and u, the true combination is in this set in a fraction between l and u, and sets chosen after the fit contain the true combination at least as often as reported. The averaged posterior distributions and mean values agree, up to the smallest floating point number times a factor that does not depend on the data, with the conditional probabilities and expectations of the parameter values given all data, at every time step of a full fit and at the last time step of a forward-only fit.", "quantifier": "all grids, hyper-grids, priors, hyper-priors, linear transition models with any number of hyper-parameters, densities of the data points, numbers of data points and numbers of jobs", "why_tests_cant": "statement about probabilities over all possible data sets; simulation could only estimate the frequencies for a few models", "anchors": ["bayesloop/core.py: HyperStudy.fit, HyperStudy.getHyperParameterDistribution, Study.getParameterDistributions"]}
{"id": "C101", "title": "Forward-only results at a time step use the data up to this time step only", "statement": "With forwardOnly=True, the posterior distributions, mean values and local evidences reported for a time step do not depend on later data points and time stamps (\"at each time step only incorporate the information of past data points\", docstrings of Study.fit and HyperStudy.fit), and what an OnlineStudy has stored for a time step is never changed by later steps. For HyperStudy this is false: the average is taken with the final distribution of the hyper-parameters, which depends on all data; only through this distribution do later data enter.", "quantifier": "all grids, priors, transition models, data that agree up to a time step and are arbitrary (also in number) afterwards; for OnlineStudy all sequences of calls", "why_tests_cant": "ranges over all continuations of a data set; the tests compare results of one data set with stored numbers", "anchors": ["bayesloop/core.py: Study.fit, HyperStudy.fit (1349-1366, 1417-1425), OnlineStudy.step"]}
{"id": "C102", "title": "Results stay valid if the decision to stop depends on the data", "statement": "One may look at the results after each data point and stop whenever one likes. If data are drawn according to one model, the probability that the evidence reported for another model ever (for whatever number of data points, also without end) becomes at least B times as large is at most 1/B. If one of several models is drawn and data points are analysed until a rule that knows the data so far tells to stop, then the probabilities of the models computed from the reported evidences are calibrated; and so are the posterior probabilities of the parameter values reported for the analysed data, and the reported mean values are the conditional expectations.", "quantifier": "all pairs or families of models (grids, proper priors, linear transition models, observation models), time stamps, stopping rules, numbers of data points; probability over all data", "why_tests_cant": "statement about the distribution of all data sets and all rules for stopping", "anchors": ["bayesloop/core.py: Study.fit (logEvidence, posteriorSequence, posteriorMeanValues)"]}
{"id": "C103", "title": "The influence of the prior fades", "statement": "If all parameters of a study perform a Gaussian random walk at all times (directly, in combinations, in all segments of a serial model without change-points), the posterior distributions that fit() stores for two different priors approach each other: their difference at time step i is at most D*q^(i/w) with q<1, where the constants depend on the parameter grid, the transition model and a bound for the likelihood ratios of single data points, but not on the priors, the data or the number of data points.", "quantifier": "all grids of any dimension, nested random-walk transition models, pairs of priors of any kind, numbers of data points, data with bounded likelihood ratios, time stamps (full fits: unit-spaced), forward-only and full fits", "why_tests_cant": "The statement is about arbitrarily long data series and all pairs of priors; a test can compare two priors for one series only.", "anchors": ["bayesloop/core.py:Study.fit", "bayesloop/core.py:Study._computePrior", "bayesloop/transitionModels.py:GaussianRandomWalk.computeForwardPrior", "bayesloop/transitionModels.py:CombinedTransitionModel.computeForwardPrior", "bayesloop/transitionModels.py:SerialTransitionModel.computeForwardPrior"]}
{"id": "C104", "title": "Rounding errors stay small", "statement": "If every arithmetic operation of fit() returns its result with a relative error of at most u (floating-point arithmetic without underflow and overflow, sums in any order), then every posterior probability, however small, the probability of the data and the mean values deviate from their values in exact arithmetic by a relative error of at most N*u/(1-N*u), where N grows linearly with the number of data points, the number of grid points and the size of the transition model; the log-evidence deviates by at most N*u/(1-u) plus the rounding errors of the logarithms and of their sum; and fit() reports impossible data in floating-point arithmetic if and only if the data are impossible in exact arithmetic.", "quantifier": "all grids, priors, data, transition models built from Static, GaussianRandomWalk, ChangePoint, Independent, Combined and Serial, time stamps, forward-only and full fits, all rounding errors within the bound", "why_tests_cant": "A test compares with one reference value computed with the same rounding errors; the bound holds for all intermediate results and all lengths of the data series.", "anchors": ["bayesloop/core.py:Study.fit (alpha, beta, norm, logEvidence, posteriorSequence, posteriorMeanValues)", "bayesloop/transitionModels.py:computeForwardPrior"]}
{"id": "C105", "title": "Rounding errors do not add up over time", "statement": "If every parameter performs a random walk at all times (Static, GaussianRandomWalk, Combined and Serial models without resets), the rounding errors of the posterior distributions and posterior mean values of a fit are bounded independently of the number of data points: there is a constant, determined by the grid, the transition model and the largest likelihood ratio of single data points, such that the error is at most this constant times the error of a single time step. For constant parameters (Static) this does not hold: there are runs with arbitrarily small rounding errors per operation whose last posterior distribution differs by 1/2 from the exact one after sufficiently many uninformative data points.", "quantifier": "all numbers of data points, all data with bounded likelihood ratios, all priors, grids and such transition models, all sequences of rounding errors with relative size at most u, forward-only fits (all time stamps) and full fits (unit-spaced time stamps)", "why_tests_cant": "A test runs a finite number of time steps on one machine; it cannot show that the error stays below a bound for data of any length and for every rounding behaviour.", "anchors": ["bayesloop/core.py:Study.fit (alpha, beta, posteriorSequence, posteriorMeanValues)", "bayesloop/transitionModels.py:GaussianRandomWalk.computeForwardPrior", "bayesloop/transitionModels.py:CombinedTransitionModel.computeForwardPrior", "bayesloop/transitionModels.py:SerialTransitionModel.computeForwardPrior"]}
{"id": "C106", "title": "Numbers that are too small do not make results wrong unnoticed", "statement": "When all calculations of Study.fit are carried out with numbers of type float64, which have a smallest positive number, the run does not report data as impossible (warning that the likelihood is zero, log-evidence minus infinity) unless they are, and the posterior distributions, mean values and the log-evidence it reports agree with the exact ones up to the precision of these numbers.", "quantifier": "all grids, priors, data, likelihood values, numbers of data points and all results that the operations and sums of a run may return (nearest number, any order of summation)", "why_tests_cant": "The smallest intermediate probabilities depend on the whole history of the data; a test runs a few data sets and has no exact results to compare with.", "anchors": ["bayesloop/core.py: Study.fit", "bayesloop/transitionModels.py: Static, GaussianRandomWalk, CombinedTransitionModel, SerialTransitionModel"]}
{"id": "C107", "title": "More data find the parameter values that describe the data best, also if none of them is true", "statement": "Independent data whose distribution is not one of those of the observation model, or whose true parameter values lie between the grid values: with probability one, the posterior distributions of a Study with constant parameters concentrate on the grid values with the smallest expected misfit (largest expected log-likelihood), the mean values converge to these values, and the log-evidence per data point converges to the expected log-likelihood there. Of two studies, the one which contains the better description of the data gets an evidence that exceeds the other one by any factor, whatever the priors, grids and observation models.", "quantifier": "all distributions of the data with finite expected misfit, all observation models, grids, priors with positive probability of the best value, time stamps and fit modes", "why_tests_cant": "A statement about infinitely many data of an arbitrary distribution; tests simulate finitely many data of one distribution.", "anchors": ["bayesloop/core.py: Study.fit", "bayesloop/transitionModels.py: Static", "bayesloop/observationModels.py: Gaussian, Laplace, WhiteNoise, Poisson, Bernoulli"]}
{"id": "C108", "title": "Averages of a hyper-study are accurate in floating-point arithmetic, however small the evidences are", "statement": "The results of HyperStudy.fit (average posterior distributions, hyper-parameter distribution, log-evidence) computed with rounding errors differ from the exact results by a relative error that is linear in the accuracy of the single fits and of the arithmetic; this holds for evidences far outside the range of floating-point numbers: the exponentials taken on the way do not overflow, no division by zero occurs, and combinations that underflow only cause errors of the size of the smallest positive number.", "quantifier": "all hyper-grids, priors, data, parameter grids, orders of summation and job numbers; all sequences of roundings with the stated accuracy", "why_tests_cant": "ranges over all sequences of rounding errors; evidences like exp(-10000) only occur for long data, where the exact result is not known", "anchors": ["bayesloop/core.py:HyperStudy.fit", "bayesloop/core.py:HyperStudy._parallelFit"]}
{"id": "C109", "title": "Results of an online study are accurate in floating-point arithmetic, however long it runs and however small the evidences are", "statement": "After any number of steps the results of an OnlineStudy computed with rounding errors (log-evidences and hyper-parameter distributions of all transition models, distribution and local distribution of the models, posterior, mean values, log-evidence) differ from the exact results by an error that is linear in the accuracy of the arithmetic; evidences may be far outside the range of floating-point numbers: no exponential overflows, no division by zero occurs, and hypotheses whose weight underflows only cause errors of the size of the smallest positive number.", "quantifier": "all data streams, transition models, hyper-grids, priors, orders of summation; all sequences of roundings with the stated accuracy", "why_tests_cant": "ranges over all sequences of rounding errors and unbounded streams; the exact result is not available to a test", "anchors": ["bayesloop/core.py:OnlineStudy.step"]}
{"id": "C110", "title": "An online study never fails and never shows undefined results as long as all data are possible", "statement": "If every data segment has a positive likelihood for all parameter values and prior, hyper-priors and prior probabilities of the models contain no zeros, OnlineStudy.step never raises an exception, for data streams of any length; as soon as a data segment is complete, distribution and local distribution of the transition models, posterior and hyper-parameter distributions are defined, sum up to one and contain no zeros, and all evidences are positive.", "quantifier": "all data streams, segment lengths, grids, combinations of transition models with any hyper-parameter grids, priors", "why_tests_cant": "unbounded streams and all nestings of transition models; a single undefined intermediate result stays in the study forever", "anchors": ["bayesloop/core.py:OnlineStudy.step", "bayesloop/core.py:OnlineStudy.addTransitionModel", "bayesloop/transitionModels.py"]}
{"id": "C111", "title": "A change-point study reports the exact posterior distribution of the change-points", "statement": "If the parameters change at change-points only and every candidate is a time stamp other than the last, ChangepointStudy.fit assigns to every combination of change-points exactly the posterior probability of Bayes' theorem: the prior probability of the combination times the product, over the pieces of the data between the change-points, of the evidence of a constant parameter, divided by the sum of these products over all combinations in increasing order. Combinations which are not in increasing order get probability zero. The volume of the grid cells has no influence.", "quantifier": "all data and likelihoods, grids, cell volumes, increasing time stamps, numbers of change-points, candidate values, hyper-priors, parameter priors (default or function), fit modes", "why_tests_cant": "ranges over all data sets and all numbers of change-points; the exact posterior is a sum over all parameter sequences, which tests never compute; tests compare rounded numbers of one grid", "anchors": ["bayesloop/core.py:ChangepointStudy.fit", "bayesloop/core.py:HyperStudy.fit", "bayesloop/core.py:Study.fit", "bayesloop/transitionModels.py:ChangePoint", "bayesloop/transitionModels.py:CombinedTransitionModel", "bayesloop/transitionModels.py:SerialTransitionModel"]}
{"id": "C112", "title": "The parameter estimates of a change-point study average exactly over all change-points", "statement": "If the parameters change at change-points only, the parameter distribution that ChangepointStudy.fit stores for a time stamp sums to one and is the average of the exact posteriors of all combinations of change-points in increasing order, weighted with their exact posterior probabilities, up to the number of grid points times the small constant that the program adds before normalising. The posterior for given change-points is Bayes' theorem for a constant parameter applied to the data of the piece which contains the time stamp. The stored mean values are the means of the stored distributions.", "quantifier": "all data and non-negative likelihoods, grids, cell volumes, lengths of data, numbers of change-points, candidate values, hyper-priors", "why_tests_cant": "ranges over all data sets and all numbers of change-points; the exact average is a double sum over change-points and parameter values, which tests never compute", "anchors": ["bayesloop/core.py:ChangepointStudy.fit", "bayesloop/core.py:HyperStudy.fit", "bayesloop/core.py:Study.fit", "bayesloop/transitionModels.py:ChangePoint", "bayesloop/transitionModels.py:CombinedTransitionModel"]}
{"id": "C113", "title": "A fit does not change the arrays of the user", "statement": "Study.fit changes neither the parameter grid of the study nor any other array that existed before, except a prior that was given as array. In particular it does not matter that the program multiplies and normalises its arrays in place and passes them on between the models: all results are those of a computation in which every operation creates a new array.", "quantifier": "all priors (none, arrays, functions, random variables), transition models, likelihood functions, data, time stamps, fit modes, and all contents of the memory before the fit", "why_tests_cant": "ranges over all ways in which arrays may be shared between user and program; tests use fresh arrays and do not look at the grid after a fit", "anchors": ["bayesloop/core.py:Study.fit", "bayesloop/core.py:Study._computePrior", "bayesloop/transitionModels.py:ChangePoint.computeForwardPrior", "bayesloop/transitionModels.py:Independent.computeForwardPrior", "bayesloop/transitionModels.py:SerialTransitionModel._forwardChangePointCheck", "bayesloop/transitionModels.py:CombinedTransitionModel.computeForwardPrior"]}
{"id": "C114", "title": "The order of the transition models does not matter in an online study", "statement": "If the same transition models are added to an OnlineStudy in another order (with setTransitionModelPrior given in the same order), the study also runs without exception, and all its answers are the same: parameter distributions and mean values, the model evidence, the distributions and mean values of all hyper-parameters, and the global and local probability of each transition model, both the current ones and the stored history.", "quantifier": "all numbers and kinds of transition models, all permutations, prior probabilities of the models (given or not), prior distributions, data, and lengths of data segments, with and without stored history", "why_tests_cant": "ranges over all permutations of any number of models and all data; tests add two models in one order", "anchors": ["bayesloop/core.py:OnlineStudy.addTransitionModel", "bayesloop/core.py:OnlineStudy.setTransitionModelPrior", "bayesloop/core.py:OnlineStudy.step", "bayesloop/core.py:OnlineStudy.getTransitionModelProbabilities", "bayesloop/core.py:OnlineStudy.getHyperParameterDistribution"]}
{"id": "C115", "title": "A change-point study answers questions about single change-points and durations exactly", "statement": "After ChangepointStudy.fit, getHyperParameterDistribution returns for every candidate value of a change-point the posterior probability that this change-point lies there, and getDurationDistribution returns for every possible distance of two change-points the posterior probability of this distance, computed by Bayes theorem from all increasing combinations of change-points.", "quantifier": "all models that consist of change-points only, with any number of change-points and candidate values, prior probabilities of the change-points, priors of the parameters, likelihood functions, data, and time stamps", "why_tests_cant": "ranges over all data and numbers of change-points; the exact answer is a sum over all combinations and over all hidden parameter values, which tests do not compute", "anchors": ["bayesloop/core.py:ChangepointStudy.fit", "bayesloop/core.py:ChangepointStudy.getDurationDistribution", "bayesloop/core.py:HyperStudy.getHyperParameterDistribution", "bayesloop/transitionModels.py:ChangePoint"]}
{"id": "C116", "title": "Integers and floating-point numbers are interchangeable", "statement": "Whether the values of a prior - of the observation model, of a hyper-parameter or of the transition models of an online study - are given as integers or as floating-point numbers makes no difference to the result: improper integer priors are re-normalised like any other prior.", "quantifier": "all priors given as arrays, lists or functions with integer or floating-point values, all transition models, parameter grids and data", "why_tests_cant": "the failure depends on the combination of the number type of the prior, the way it is given and the transition model; a test fixes one combination, usually with floats", "anchors": ["bayesloop/core.py: Study._computePrior, Study.fit, HyperStudy._createHyperGrid, OnlineStudy.setTransitionModelPrior", "bayesloop/transitionModels.py: ChangePoint, Independent, SerialTransitionModel"]}
{"id": "C117", "title": "A study of structural breaks reports the exact posterior distribution of break times, of other hyper-parameters and of the parameters", "statement": "In a ChangepointStudy whose transition model is a SerialTransitionModel of Static models and Gaussian random walks (alone or combined) separated by structural breaks, with uncertain break times and possibly uncertain standard deviations, fit stores for every combination of hyper-parameter values in which the breaks are in order its posterior probability by Bayes' theorem (prior times the sum over all parameter paths, divided by the sum of these products), and zero for all other combinations. Queries for single hyper-parameters and for durations return the exact marginal distributions, and the averaged parameter distributions are the exact mixtures up to 10^-300 per grid point.", "quantifier": "all transition models assembled from Static, GaussianRandomWalk, Combined and Serial with structural breaks (any depth, any number of breaks), all hyper-grids and hyper-priors, all parameter grids and cell volumes, all data and likelihoods, all priors of the parameters except arrays, any number of jobs", "why_tests_cant": "a test can compare with the exact posterior for a few data sets and models only; the statement sums over all parameter paths and all combinations and holds for every model, grid and data set", "anchors": ["bayesloop/core.py ChangepointStudy.fit", "bayesloop/core.py HyperStudy.fit", "bayesloop/core.py HyperStudy.getHyperParameterDistribution", "bayesloop/core.py ChangepointStudy.getDurationDistribution", "bayesloop/transitionModels.py SerialTransitionModel", "bayesloop/transitionModels.py BreakPoint"]}
{"id": "C118", "title": "Queries that cannot be answered are rejected", "statement": "A query to a Parser (or to the eval method of a study) raises an error, instead of returning a number or a distribution, if one of its names belongs to no study, if a parameter with one distribution per time step is used without a time step (neither @ nor the argument t), if the time step after @ is not a time stamp of the study the parameter belongs to, if @ is applied to a hyper-parameter that has a single distribution, or if the argument t is not a time stamp of the studies.", "quantifier": "all queries of any size and nesting, with and without relational operator, all lists of studies (with fixed, static or time-dependent hyper-parameters, with and without stored history), all time arguments", "why_tests_cant": "a test can try a few malformed queries; the place of the missing time step in the expression is arbitrary, and one path through the operators that forgets the check returns a plausible number", "anchors": ["bayesloop/parser.py Parser.__call__", "bayesloop/parser.py Parser._operation", "bayesloop/parser.py Parser._convert", "bayesloop/parser.py Parser._evaluate", "bayesloop/core.py Study.eval"]}
{"id": "C119", "title": "A hyper-study reports the exact posterior distribution of its hyper-parameters and averages the parameters exactly over them", "statement": "In a HyperStudy whose transition model consists of Static models and Gaussian random walks (combined and in series, separated by structural breaks) with uncertain standard deviations or break times, fit stores for every combination of hyper-parameter values its posterior probability by Bayes' theorem: prior probability times the probability of the data, a sum over all parameter paths, divided by the sum of these products. The evidence is the prior average of the probability of the data. getHyperParameterDistribution returns the exact marginal distributions. After a full fit the averaged parameter distributions of all time steps, and after a forward-only fit that of the last time step, are the exact posterior distributions up to 10^-300 per grid point.", "quantifier": "all transition models assembled from Static, GaussianRandomWalk, Combined and Serial with structural breaks, all hyper-grids and hyper-priors, all parameter grids and cell volumes, all data and likelihoods, all priors of the parameters except arrays, any number of jobs", "why_tests_cant": "a test can compare with the exact posterior for a few data sets and models only; the statement sums over all parameter paths and all combinations", "anchors": ["bayesloop/core.py HyperStudy.fit", "bayesloop/core.py HyperStudy.getHyperParameterDistribution", "bayesloop/core.py Study.fit", "bayesloop/transitionModels.py GaussianRandomWalk", "bayesloop/transitionModels.py SerialTransitionModel"]}
{"id": "C120", "title": "An online study reports the exact posterior distributions of hyper-parameters, parameters and transition models", "statement": "In an OnlineStudy whose transition models are the Static model and Gaussian random walks (alone or combined) with uncertain standard deviations, after every step each transition model holds, for every combination of its hyper-parameter values, the posterior probability of Bayes' theorem given the data so far: prior probability times the probability of the data, a sum over all parameter paths, divided by the sum of these products. Its parameter distribution is the exact one for the latest data point, averaged over the hyper-parameter values. With equal prior probabilities of the models and hyper-grids of the same cell volume, the distribution of transition models is the exact posterior one, and the reported parameter distribution is the exact average over all models and hyper-parameter values.", "quantifier": "all sets of transition models assembled from Static, GaussianRandomWalk and Combined, all hyper-grids and hyper-priors, all parameter grids and cell volumes, all data streams of any length, all segment lengths, all likelihoods for which no combination of hyper-parameter values rules out the data, all priors of the parameters except arrays", "why_tests_cant": "the statement holds after every step of every data stream and sums over all parameter paths, combinations and models; a test compares a few numbers", "anchors": ["bayesloop/core.py OnlineStudy.step", "bayesloop/core.py OnlineStudy.addTransitionModel", "bayesloop/transitionModels.py GaussianRandomWalk"]}
{"id": "C121", "title": "Questions about the current state of an online study are answered exactly", "statement": "In an OnlineStudy as in C120, after every step: getCurrentHyperParameterDistribution(name) returns the values of the hyper-parameter and their exact posterior probabilities given the data so far; getCurrentTransitionModelDistribution() and getCurrentTransitionModelProbability(name) return the exact posterior probabilities of the transition models (equal prior probabilities, hyper-grids of the same cell volume); getCurrentParameterDistribution(name) returns the grid values of the parameter and their exact posterior probabilities (or probability densities), averaged over all transition models and hyper-parameter values; getCurrentParameterMeanValue(name) returns the exact posterior mean.", "quantifier": "all sets of transition models assembled from Static, GaussianRandomWalk and Combined, all hyper-grids and hyper-priors, all parameter grids, all data streams of any length, all segment lengths, all likelihoods for which no combination rules out the data, all priors of the parameters except arrays, all names", "why_tests_cant": "tests compare the shape or a few digits of single query results; the statement relates every query after every step to sums over all parameter paths", "anchors": ["bayesloop/core.py OnlineStudy.getCurrentHyperParameterDistribution", "bayesloop/core.py OnlineStudy.getCurrentTransitionModelDistribution", "bayesloop/core.py OnlineStudy.getCurrentTransitionModelProbability", "bayesloop/core.py OnlineStudy.getCurrentParameterDistribution", "bayesloop/core.py OnlineStudy.getCurrentParameterMeanValue"]}
{"id": "C122", "title": "The history of an online study keeps the exact results of every step", "statement": "In an OnlineStudy as in C120 with storeHistory=True, whatever data points follow later: in the row for a data point, getTransitionModelDistributions() and getParameterMeanValues(name) contain the exact posterior probabilities of the transition models and the exact posterior mean given the data up to this point; getParameterDistribution(t, name, density=False), getHyperParameterDistribution(t, name) and getHyperParameterMeanValue(t, name) return, for the time stamp t of the data point, the exact posterior probabilities of the grid values, of the hyper-parameter values (up to the volume of a cell of the hyper-grid) and the exact posterior mean of the hyper-parameter given the data up to this point.", "quantifier": "all sets of transition models assembled from Static, GaussianRandomWalk and Combined, all hyper-grids and hyper-priors, all parameter grids, all data streams of any length and all points within them, all segment lengths, all likelihoods for which no combination rules out the data, all priors of the parameters except arrays, all names", "why_tests_cant": "tests look at one stored row of one short stream; the statement relates every stored row, after every later stream, to sums over all parameter paths", "anchors": ["bayesloop/core.py OnlineStudy.step", "bayesloop/core.py OnlineStudy.getTransitionModelDistributions", "bayesloop/core.py OnlineStudy.getParameterMeanValues", "bayesloop/core.py OnlineStudy.getParameterDistribution", "bayesloop/core.py OnlineStudy.getHyperParameterDistribution", "bayesloop/core.py OnlineStudy.getHyperParameterMeanValue"]}
{"id": "C123", "title": "The results of an online study are calibrated", "statement": "Suppose one of the transition models of an OnlineStudy is drawn with equal probabilities, then hyper-parameter values from their prior, then a parameter path and data from the model. After all data have been passed to the study: the probabilities it reports for the transition models are the conditional probabilities given the data (of all cases in which a probability between l and u is reported for a set of models, the true model is in the set in a fraction between l and u; sets chosen after looking at the data cover the true model at least with the reported probability); the same holds for transition models together with hyper-parameter values (product of the reported probabilities) and for the current parameter values; the reported mean values are the conditional expectations and no other estimate computed from the data has a smaller mean squared error.", "quantifier": "all sets of transition models assembled from Static, GaussianRandomWalk and Combined with hyper-grids of the same cell volume, all hyper-priors and priors without zeros, all parameter grids, all numbers of data points, all likelihoods that are positive (also if they depend on the data in any way), all decision rules and estimators", "why_tests_cant": "the statement is about frequencies in infinitely many repetitions and about all estimators; a test can only estimate frequencies from few simulated data sets", "anchors": ["bayesloop/core.py OnlineStudy.step", "bayesloop/core.py OnlineStudy.getCurrentTransitionModelDistribution", "bayesloop/core.py OnlineStudy.getCurrentHyperParameterDistribution", "bayesloop/core.py OnlineStudy.getCurrentParameterDistribution", "bayesloop/core.py OnlineStudy.getCurrentParameterMeanValue"]}
{"id": "C124", "title": "Watching an online study and stopping because of its results does no harm", "statement": "Suppose transition model, hyper-parameter values, parameter path and data are drawn from the models of an OnlineStudy, as in C123, and data points are passed to the study one by one until a rule that may look at the data so far and at everything the study has reported so far tells to stop. Then the results reported at this moment are still calibrated: probabilities of transition models, of transition models with hyper-parameter values and of the current parameter values are the conditional probabilities given the data seen, mean values are the conditional expectations with the smallest mean squared error. In particular, among all runs in which the reported probability of a set of transition models reaches l after any of the data points, the true transition model belongs to the set in a fraction of at least l, and when the reported probability of a set of parameter values reaches l for the first time, the current parameter values belong to it in a fraction of at least l of these runs.", "quantifier": "all stopping rules that depend on the past only, all thresholds, all sets of transition models assembled from Static, GaussianRandomWalk and Combined with hyper-grids of the same cell volume, all hyper-priors and priors without zeros, all parameter grids, all numbers of data points, all positive likelihoods of single data points", "why_tests_cant": "the statement is about frequencies in infinitely many repetitions and about all stopping rules; a test can only simulate few rules and estimate frequencies", "anchors": ["bayesloop/core.py OnlineStudy.step", "bayesloop/core.py OnlineStudy.getCurrentTransitionModelDistribution", "bayesloop/core.py OnlineStudy.getCurrentHyperParameterDistribution", "bayesloop/core.py OnlineStudy.getCurrentParameterDistribution", "bayesloop/core.py OnlineStudy.getCurrentParameterMeanValue"]}
{"id": "C125", "title": "The change-points and structural breaks reported by a change-point study are calibrated", "statement": "Suppose the true combination of change-points is drawn from the prior distribution of a ChangepointStudy, given that the change-points are in order, then one parameter value per piece from the parameter prior, and then the data. Then the distribution of the change-points that the study reports after the fit is calibrated: the probability it reports for a set of combinations is the conditional probability given the data, and among all runs in which at least l is reported for a set, the true change-points belong to it in a fraction of at least l. The same holds for the times of structural breaks and all other hyper-parameters of a model with random walks in series, if the parameter path is drawn from the transition model. The averaged posterior probabilities and mean values of the parameters after a full fit are the conditional probabilities and expectations, up to the floor of 10^-300 used by the code.", "quantifier": "all models made of change-points (or of Static and GaussianRandomWalk in series, separated by structural breaks, and their combinations), all candidate values that are time stamps other than the last, all hyper-priors, all parameter grids, all numbers of data points, all likelihoods", "why_tests_cant": "the statement is about frequencies in infinitely many repetitions of drawing change-points, parameters and data; a test can only simulate few of them and estimate frequencies", "anchors": ["bayesloop/core.py ChangepointStudy.fit", "bayesloop/core.py HyperStudy.fit", "bayesloop/core.py Study.fit", "bayesloop/transitionModels.py ChangePoint", "bayesloop/transitionModels.py SerialTransitionModel"]}
{"id": "C126", "title": "Change-points together with random walks and structural breaks are inferred exactly", "statement": "For a ChangepointStudy whose transition model contains change-points together with Gaussian random walks and structural breaks (a random walk combined with a change-point; random walks in series, separated by change-points and structural breaks), the stored distribution of the hyper-parameters (times of change-points and breaks, standard deviations of the walks) is the posterior distribution of Bayes theorem over the combinations in order; the queries for the distribution of one hyper-parameter and for the duration between two points return its marginals; the averaged parameter distributions of a full fit are the exact mixtures up to the floor of 10^-300; the evidence is the average probability of the data, times the volume of a grid cell for every change-point; and if hyper-parameters, parameter path and data are drawn from the model, the reported distribution is calibrated.", "quantifier": "all such models, all candidate values of the change-points that are time stamps other than the last, all values of the other hyper-parameters, all hyper-priors, all parameter grids and cell volumes, all numbers of data points, all likelihoods", "why_tests_cant": "the statement compares the results with a sum over all parameter paths for every combination of hyper-parameter values, for every model that can be built; a test can only compare few models, grids and data sets", "anchors": ["bayesloop/core.py ChangepointStudy.fit", "bayesloop/core.py HyperStudy.fit", "bayesloop/core.py Study.fit", "bayesloop/core.py ChangepointStudy.getDurationDistribution", "bayesloop/transitionModels.py ChangePoint", "bayesloop/transitionModels.py CombinedTransitionModel", "bayesloop/transitionModels.py SerialTransitionModel", "bayesloop/transitionModels.py GaussianRandomWalk"]}
{"id": "C127", "title": "Infinite values are compared as infinities in queries", "statement": "If an expression in a relational query of the parser is infinite for some values of the parameters (1/x or log(x) at zero), these values count with the usual order: plus infinity is larger and minus infinity smaller than every number, and equal infinities are equal; values for which a side is undefined (0/0, infinity minus infinity) do not count. The result is the probability of the relation, under the joint distribution of the parameters of one study or for independent parameters of different studies.", "quantifier": "all lists of studies, all expressions (sums, products, quotients, signs, functions, any nesting), all relations, all values of the external functions on infinite and undefined arguments, all recursion limits; queries that are answered", "why_tests_cant": "the infinite cases occur only on grids with particular values, and moving the right side to the left changes the order in which infinities are added; the failing queries have infinities on both sides", "anchors": ["bayesloop/parser.py: Parser.__call__, Parser._evaluate, Parser._operation"]}
{"id": "C128", "title": "Equivalent queries have equal answers and weaker queries at least as large ones", "statement": "If for all values of the parameters the statement of one relational query of the parser implies the statement of another one, the probability returned for the first is not larger than that for the second; in particular exchanging the two sides of a query (a > b and b < a) does not change the answer, also if the parameters belong to different studies.", "quantifier": "all lists of studies and stored distributions, all pairs of expressions (any nesting, also infinite or undefined values), all relations and time steps; queries that are answered", "why_tests_cant": "compares pairs of queries over all expressions and distributions; tests check the value of single queries", "anchors": ["bayesloop/parser.py: Parser.__call__, Parser._evaluate, Parser._operation"]}
{"id": "C129", "title": "Queries on a fitted study return the exact probability given the data", "statement": "After a fit, a relational query of the parser about the parameters of the study is answered with the conditional probability of the comparison given the data: the share of the parameter paths (weighted by initial probability, transition probabilities and likelihoods) on which it is true, given all data after a full fit and given the data up to that time after a forward-only fit. The time may be given in the query (x@t) or as the argument t.", "quantifier": "all grids with any number of parameters, transition models built from the exactly computed ones, likelihoods, priors, data of non-zero probability, time stamps (unit spacing for the full fit), and all queries about parameters of the study (any nesting, any relation, alone or with other studies in the parser)", "why_tests_cant": "ties the answer of the parser to the sum over all parameter paths for all models, data and expressions; tests compare single answers with recorded numbers", "anchors": ["bayesloop/parser.py: Parser.__init__, Parser.__call__, Parser._evaluate", "bayesloop/core.py: Study.fit"]}
{"id": "C130", "title": "Queries on a fitted hyper-study or change-point study return exact posterior probabilities", "statement": "After the fit of a hyper-study or change-point study, a relational query of the parser about its hyper-parameters (for instance t2 - t1 > 10 for two change-points or break-points, or sigma < 0.1) is answered with the posterior probability of Bayes theorem: prior probability times probability of the data, summed over the combinations of values for which the comparison is true, divided by the sum over all combinations. A query about parameters of the observation model at one time step is answered with the probability under the posterior distribution averaged over the hyper-parameters.", "quantifier": "all grids, data of non-zero probability, likelihoods, priors of the parameters that are not arrays, hyper-priors, numbers of hyper-parameters and of jobs, transition models of C119 (hyper-study) and C111 (change-point study), and all queries about hyper-parameters, or about parameters at one time step, of the study (any nesting, any relation, alone or with other studies in the parser)", "why_tests_cant": "ties the answer of the parser to sums over all combinations of hyper-parameters and all parameter paths; tests compare single answers with recorded numbers", "anchors": ["bayesloop/parser.py: Parser.__init__, Parser.__call__, Parser._evaluate", "bayesloop/core.py: HyperStudy.fit, ChangepointStudy.fit, Study._getHyperParameterIndex"]}
{"id": "C131", "title": "Queries on an online study return exact probabilities given the data so far", "statement": "After every data point of an online study that does not store its history, the parser accepts the study (if all parameters and hyper-parameters have different names), a query about its current parameters (like mean > 1) is answered with the exact probability given all data so far, averaged over all transition models and their hyper-parameters, and a query about the hyper-parameters of one transition model (like sigma < 0.1) with their exact posterior probability for this model. If the study stores its history, a query about the parameters at an earlier time stamp is answered with the exact probability given the data up to that time.", "quantifier": "all grids, data streams, likelihoods, priors of the parameters that are not arrays, hyper-priors, numbers of transition models (Static, Gaussian random walks and combinations of them, as in C120), and all queries about current parameters or hyper-parameters (any nesting, any relation, alone or with other studies in the parser)", "why_tests_cant": "ties the answers of the parser at every moment of a stream to sums over all transition models, hyper-parameters and parameter paths; tests compare single answers with recorded numbers", "anchors": ["bayesloop/parser.py: Parser.__init__, Parser.__call__, Parser._evaluate", "bayesloop/core.py: OnlineStudy.step, Study._getHyperParameterIndex"]}
