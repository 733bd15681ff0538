# Formal model of bayesloop in Lean 4 — design

The subject is `/repo/bayesloop` (pure Python; read as text, never executed).
`properties.jsonl` lists the claims, `MANIFEST.json` maps every claim to the theorems,
`lean/Verif/Model/*.lean` is the model (every definition cites file and lines),
`lean/Verif/Spec/*.lean` are small specifications that do not mention the model,
`lean/Verif/Lemmas/*.lean` are helper lemmas, `lean/Verif/Props/*.lean` are the property theorems.

## 1. Modelling decisions

**Numbers.** All algorithms are modelled over an arbitrary linearly ordered field `K`
(`[Field K] [LinearOrder K] [IsStrictOrderedRing K]`): exact arithmetic, no rounding.  Theorems
therefore hold for ℝ and ℚ; counterexamples are computed in ℚ.  Rounding errors of `Study.fit` are modelled separately
(Model/Rounding.lean, C104); underflow and overflow are NOT
modelled.

**NaN.** Non-finite values are explicit where the code can create them.  A numpy array on the
parameter grid is `Arr = Option (grid → K)`; `none` means "contains non-finite entries".  The
code creates them by dividing by a sum that is zero (`0/0` in all entries, since all arrays are
non-negative), and every later use is modelled as numpy does it (`nan > 0.` is false, so the forward
pass stops with evidence zero, ...).  Uninitialised memory (`np.empty`) is an explicit
constructor of `Cell`.

**Logarithms.** A log-space number is represented by the number it is the logarithm of
(`LogV K`, `-inf` = log 0), so that `+` is multiplication, `logaddexp` is addition and `exp` is exact.
`Verif/Model/LogReal.lean` proves for ℝ that this representation commutes with
`Real.log`/`Real.exp`.

**Arrays.** The parameter grid with `gridSize = gs` is the type `Idx gs = (a : Fin d) → Fin (gs a)`;
an array on the grid is a function on it.  Axis operations (filters, marginalisation) act on the
coordinates.  Hyper-grids and parser values are flat lists (C order), as in the code.

**In-place mutation.** Where numpy aliasing is observable it is modelled explicitly: the forward pass
carries the content of `observationModel.prior` and a flag saying whether `alpha` is that very
array object.  Query functions that write through views return the new study state.

**Exceptions** are values (`Except PyErr`).

**External functions** (scipy `gaussian_filter1d` weights, `10.**x`, spline `shift`, alpha-stable and
bivariate kernels, user functions, sympy densities, the COBYLA minimiser) are parameters of the model.  What
`gaussian_filter1d` does with its weights (correlation with `reflect` boundary) is modelled.

## 2. What is modelled

| Python (`/repo/bayesloop`) | Lean (`lean/Verif/`) |
|---|---|
| exceptions.py, numbers in log-space | Model/Basic.lean (exceptions as values, `LogV`), Model/LogReal.lean (the same as `Real.log`/`Real.exp`) |
| transitionModels.py, all classes: attributes | Model/TM.lean |
| transitionModels.py: `computeForwardPrior`, `computeBackwardPrior` of all classes | Model/Transition.lean |
| transitionModels.py 148-187, 867-891: kernel caches | Model/Cache.lean |
| transitionModels.py 196-223, 899-911 and scipy's filter weights, `10**x` (over ℝ) | Model/RealExt.lean |
| transitionModels.py 618-627, 693-762: constructors of Combined and Serial | Model/Construct.lean |
| constructors of the elementary models, `_unpack*`, `_set*`, `getHyperParameterValue` (core.py 623-839, 1501-1533), helper.py 11-62 | Model/HyperParams.lean |
| `loadData`, `setObservationModel`, `setTransitionModel`, `set`, `_checkConsistency` (core.py 93-182, 267-328, 1098-1115), helper.py 90-120 (`cint`, `oint`) | Model/Config.lean |
| `_computePrior`, `fit` (core.py 184-265, 330-486) | Model/Fit.lean |
| `fit` in floating-point arithmetic (core.py 372-470, 483) | Model/Rounding.lean |
| `fit` with numbers of type `float64`, including underflow (core.py 372-470) | Model/Float64.lean |
| averages of `HyperStudy.fit` with rounding errors (core.py 1291-1410) | Model/RoundingHyper.lean |
| `OnlineStudy.step` with rounding errors (core.py 2105-2215) | Model/RoundingOnline.lean |
| arrays as objects, changed in place (core.py 184-486; transitionModels.py) | Model/Heap.lean |
| element types of user-supplied arrays (core.py 184-486, 1187-1232, 2040-2060; transitionModels.py 300-314, 351-360, 788-815) | Model/Dtype.lean |
| `save`, `load` (fileIO.py 10-38) | Model/Files.lean |
| attributes `study`, `latticeConstant`, `tOffset`, kernels of transition-model objects; several studies with common objects (core.py 93-182, 267-290, 330-486; transitionModels.py) | Model/Objects.lean |
| `optimize`, `_optimizationStep` (core.py 488-565; COBYLA external) | Model/Optimize.lean |
| `simulate`, `getParameterMeanValues`, `getParameterDistribution(s)` (core.py 567-602, 841-1005) | Model/Getters.lean |
| `HyperStudy._createHyperGrid`, `fit`, `_parallelFit` (core.py 1117-1533) | Model/HyperStudy.lean |
| `getHyperParameterDistribution`, `getJointHyperParameterDistribution` (core.py 1535-1700) | Model/HyperDist.lean |
| `ChangepointStudy` (core.py 1743-1930) | Model/Changepoint.lean |
| `OnlineStudy` (core.py 1933-2990, all steps and queries) | Model/Online.lean |
| preprocessing.movingWindow, `ObservationModel.processedPdf` | Model/Observation.lean |
| the eight built-in observation models (observationModels.py 394-917), `pdf` | Model/Likelihood.lean |
| user-defined observation models NumPy, SciPy, SymPy (observationModels.py 59-391) | Model/Custom.lean |
| `estimateParameterValues`, `jeffreys` of the built-in models | Model/Defaults.lean |
| `computeJeffreysPriorAR1` (jeffreys.py 71-108) | Model/Jeffreys.lean |
| `getJeffreysPrior` (jeffreys.py 17-68), with exact calculus in place of SymPy | Model/SymJeffreys.lean |
| `Study.loadData`, `set`, `fit` together | Model/Study.lean |
| parser.py from the parsed token list on | Model/Parser.lean, Model/ParserView.lean |
| grammar of queries (parser.py 93-128, 374-388), including the part of pyparsing it uses | Model/Grammar.lean |

Plots (Model/Plot.lean) are modelled as lists of drawing commands with the numbers passed to them.  Not modelled: what matplotlib does with them beyond Spec/Plot.lean (colours, keyword arguments, figures), `plot(name, t='avg')` for hyper-parameters of an online study, the label of duration charts, printing and progress bars; cloudpickle (Model/Files.lean describes what it does: copies of all objects that can be reached, with the references between them; not files, versions, HyperStudy and OnlineStudy objects); the implementation of the third-party package pyparsing (Model/Grammar.lean
follows its documented behaviour for the constructs which parser.py uses; it was compared outside of Lean with pyparsing 3.1.0 on 4000 random texts without differences); the implementation of SymPy (derivatives, sums, integrals and simplifications are assumed to be exact; supports are intervals or ranges of integers);
overflow; underflow and rounding outside of `Study.fit` and the averages of `HyperStudy.fit`; the single operations of scipy's filter; numpy dtypes (other than integer versus float in user-supplied priors, Model/Dtype.lean); object identity other than the aliases listed in section 1 and the objects of Model/Objects.lean
(there, one transition-model object may be used at several places of a nested model, C90); process pools other than their split and merge of the work;
`loadExampleData`; Python keyword handling.  The functions supplied by the user (priors, hyper-priors, likelihoods of the NumPy/SciPy/SymPy models, the curve of Deterministic) are arbitrary
functions.

## 3. Plan per property

Proof style: (A) algebraic law, (I) invariant by induction, (R) refinement to a specification,
(D) decision logic. "Refuted" = the code violates the claim; the negation is proved with a concrete witness and the part that
does hold is proved as `_partial`.

* C01 (R) forward recursion = explicit sum over all paths `Fin n → grid`; model trees by structural induction.
* C02 (R) same with resets; exact lattice-constant factor; claim refuted for lattice constant ≠ 1, partial otherwise.
* C03 (R) filtering = ratio of path sums on the prefix; causality by prefix lemma.
* C04 (R) forward–backward = marginal of path sum; needs symmetric commuting kernels (C19) and unit spacing.
* C05 refuted (prior counted twice); partial: flat prior (part of C04).
* C06 refuted (uses `t-1`); partial: unit spacing.
* C07 (I) normalisation invariant for all models.
* C08 (A/D) forward pass shared by all modes.
* C09 (R) from the path-sum characterisation.
* C10 (A) likelihood one is neutral; Static deletion lemma by induction.
* C11 (R) closed form + permutation invariance.
* C12 (A) scaling lemma through the normalised recursion.
* C13, C14 refuted in general (lattice factor, NaN), exact formulas proved.
* C15 refuted for array priors (aliasing); partial for the others.
* C16 refuted (scale at which the sum is exactly one); partial.
* C17, C18 (A) pointwise arguments; C18 refuted for uniform distributions (NaN).
* C19 (A) reflection argument on a period of length 2n.
* C20 (D/I) list lemmas; constructor as iff.
* C21–C23 (R) equality of model denotations, lifted through fit.
* C24 (A) telescoping sum.
* C25 (I) structural induction on nested models; C26 induction, refuted for Deterministic with a prior list; C27 (D).
* C28 (I) Cartesian product by induction on the list of hyper-parameters.
* C29–C33, C37 (R/A) list sums; C37 refuted (uninitialised entries).
* C34–C36 (A) mixed-radix index arithmetic; C35 refuted (in-place multiplication on a view).
* C38 (D/A) filter/scatter lemmas; C39 refuted for three change-points, partial otherwise.
* C40–C45 (I/R) state machine of OnlineStudy; C40 refuted for time-dependent models, C41 refuted (prior ignored), C44, C45 refuted, partial theorems.
* C46–C50 (A/R) parser on value/probability lists; C48, C49 refuted, partial theorems.
* C51–C54 (A/I/D) helper and configuration logic; C53 refuted.
* C55 (A) Fubini for finite sums over `Idx`.
* C56, C57 (A) Mathlib series/integrals over ℝ.
* C58 refuted (empty selection means "all"); partial.
* C59 refuted (cache key lacks the grid); partial.
* C60 (A).
* C61 (R) evidences of all data sets sum to one: total mass is conserved by each transition (all models), induction on the length; real-valued data by Fubini from C01.
* C62 (A) default grids and priors; configuration and fit composed.
* C63 (I) local distribution of transition models: invariant over all histories of steps.
* C64 (A) mean values and distributions of an OnlineStudy: both computed from the stored posteriors.
* C65 (A) default priors: Fisher information from the moments of the distributions.
* C66 (A) prior of auto-regressive processes: Fisher information of the exact likelihood by induction on the number of observations.
* C67 (A) user-defined observation models: arguments by name, permutation invariance.
* C68 (D) prior of SymPy models.
* C69 (R) continuation of a data set by one observation: induction over the data with an arbitrary measure on the observations.
* C70 (I) arrays without zeros are kept by every transition (induction over nested models) and by every step of a fit.
* C95 (I, R) invariant of every sequence of configuration calls (only the last data and models count), then composition of C01, C03, C04, C52, C54, C55, C57.
* C96 (A, limit) posterior odds of the true grid point against the others: the expected square root of the odds shrinks by the Hellinger affinity < 1 per data point; Markov inequality, Borel-Cantelli. Data are modelled as independent random variables of Mathlib.
* C97 (I, R) simulation between the original session and the copied part of the other session under a renaming of objects; frame rule for calls on separate parts.
* C98, C99 (A) finite hidden quantity and data with a joint density: conditional expectations of Mathlib, tower of marginals, squared-error decomposition; the densities are the path weights of C03/C04 and the evidences of C01/C02.
* C100 (A) as C98/C99 for pairs (combination, path): C29-C31 give the weights, C01-C04 the single fits, the floor of C30 the error.
* C101 (I) induction over the common part of the data; invariant of the histories of an online study.
* C102 (A) the data law restricted to the first data points is the data law of the shorter study (consistency), decomposition by the first time at which a bound is reached (Ville); joint law of unknown quantity and analysed data on the disjoint union of the data spaces.
* C103 (fading prior) — `Lemmas/Forget.lean` proves for the path model over an ordered field that windows of transitions with bounded ratios contract the ratio of two distributions (Birkhoff/Doeblin argument); `Props/C103.lean` bounds the transition probabilities of nested random walks from below and applies this to `fit`.
* C104 (rounding) — `Model/Rounding.lean` describes the loops of `fit` as a relation between intermediate results with relative errors at most `u` (any rounding mode, any order of summation). `Lemmas/Rounding.lean`, `Lemmas/RoundingFit.lean`: the ratio of the accumulated rounded and exact quantities stays between `(1-u)^N` and `(1-u)^-N`, where the products of the normalisation constants so far are part of the invariant (all arrays are non-negative, so that no cancellation occurs); `Props/C104.lean` turns this into error bounds for all results. The accuracy of the prior array is a hypothesis: where the test `norm != 1.` of core.py 211/227 depends on rounding, see C74 in section 5.
* C105 (rounding over time) — `Lemmas/RoundingForget.lean`: the computed array of time step k is close to the exact step applied to the computed array of time step k-1, up to a factor. The influence of this error on later distributions shrinks geometrically (same contraction as in C103), so that the sum over all time steps stays below a constant; used twice, for the forward and (with reversed time, the transition probabilities are symmetric) the backward arrays. `C105_static_refuted`: for constant parameters rounding errors that always favour the same value add up.
* C106 (float64) — `Model/Float64.lean` describes the runs of `fit` with the numbers of type `float64` and operations that return the nearest number; elementary transitions are accurate down to a number `low`. `Lemmas/Float64*.lean`: numbers of at least `2^-1022` are rounded with a relative error of `2^-53`, sums even without this condition. An invariant keeps all positive values of the arrays above a bound, which decreases by a factor per time step, or, for random walks, stays above a constant because the walk spreads the probability over the grid; so that every such run is a run of C104 and C105. `C106_refuted`, `C106_silent_refuted`: runs with larger likelihood ratios.
* C107 (misspecified data) — strong law of large numbers (Mathlib) for the logarithms of likelihood ratios (`Lemmas/BestFit.lean`); the posterior of the static model is the explicit one-shot formula of C11. `Worse` and `NotBetter` compare two descriptions of the data by the expected logarithm of the likelihood ratio (Spec/BestFit.lean). Covers sets of equally good values (`C107_set`), the rate of the evidence (`C107_evidence`), the comparison of two studies (`C107_compare`) and the built-in observation models with explicit criteria.
* C108 (rounding errors of hyper-studies) — `Model/RoundingHyper.lean` describes the averaging in log-space as a relation between intermediate results: operations on logarithms have an absolute error proportional to their size, exponentials and quotients a relative error or an absolute error `τ` (underflow); `np.logaddexp` in any order and grouping. `Lemmas/SoftMax.lean`, `Lemmas/SoftMaxHyper.lean`: subtracting the maximum keeps all exponentials in [0, 2] and their sum above 1/10. `C108_partial` compares with the result of the exact `hyperFit` (C29-C31); `C108_singles_partial` derives the accuracy of the single fits from C104; `C108_size` evaluates the bounds for 53 bits.
* C109 (rounding errors of online studies) — `Model/RoundingOnline.lean` describes one hypothesis (`ROHyp`: transition, likelihood, norm, running log-evidence), one transition model (`ROModel`) and the study (`ROCombine`, `ROLocal`) with rounding errors, in the style of C104 and C108. `Lemmas/RoundingOnline.lean` has the estimates for the averages, `Props/C109.lean` those for one hypothesis and the comparison with the exact `runSteps`. `C109_partial`: all results; `C109_average`: the averages alone, given the accuracy of the models; `C109_local`: the local distribution.
* C110 (totality of online studies) — `Lemmas/OnlineLive.lean`: induction over the data with the invariant `OInv` of C40; every hypothesis stays positive (`chain_live`, by `fwd_full` of C70), so every loop of `step` succeeds. `C110_notEqual_refuted`: with NotEqual all results become undefined without an exception.
* C111 (posterior of change-points) — `Spec/Pieces.lean`: the evidence for given change-points as a product over the pieces of the data. `evidence_pieces`: the sum over all parameter sequences of C02 equals this product (induction over the data); the spurious factor cell^k of C02 is the same for all combinations in order (`mass_steps`) and cancels in the normalisation. `C111_refuted`, `C111_last_refuted`: witnesses with candidates that are no time stamps, or the last one.
* C112 (estimates averaged over change-points) — for given change-points the forward-backward pass yields the posterior of the piece (`single_piece`: C02's marginal at a time equals the piece-wise posterior); the average of C38 with the weights of C111 is the exact Bayesian average, up to the constant added before the normalisation (`average_spec`).
* C113 (arrays with identity) — `Model/Heap.lean` repeats the fit with arrays as objects in a heap and all in-place operations as writes. `good_fit`: simulation between both models (the invariant `Owner` says that `alpha` is either the prior array of the user or an array created by the fit). This justifies the value semantics of Model/Fit.lean. `C113_refuted`, `C113_held_refuted`, `C113_grid_refuted`: witnesses where the grid or a user array is overwritten.
* C114 (order of the models) — `Spec/Order.lean` says what it means that two studies agree up to a permutation of their models; every function called by `step` preserves this relation (`initialise_order`, `analyse_order`, `record_order`, `step_order`), then induction over the data. `C114_parameters`, `C114_models`, `C114_hyper`: all queries give the same answers. The attribute `transitionModel` (the last model added) is left out, it does depend on the order.
* C115 (R) — the distribution of C111 summed over the combinations with a given value of one change-point (C34) or with a given distance (C39); `pick_total` is the common summation lemma.
* C116 (number types) — `Model/Dtype.lean` repeats the functions that change user-supplied values in place, with the element type (integer or float) of the arrays. `C116_partial`: simulation between both models, by induction over the nested transition model and the data, for floats and for models that never return to the prior; the failures are proved for all inputs of the respective kind (`C116_refuted`, `C116_reset_refuted`, `C116_hyper_refuted`, `C116_models_refuted`).
* C117 (structural breaks) — `cp_exact`: a change-point study whose single fits report the probabilities `ev` and the distributions `post` stores exactly the mixture; instantiated with C01 (evidence is a sum over paths) and C04 (smoothing) for models without resets. `C117_segments` says which sub-model acts at which time.
* C118 (rejected queries) — `LoadedAs`: what each loaded parameter stands for; the arithmetic operators are the only way to the answer and check the time steps of both operands (`arith_time`), functions keep name and time of their argument, so all references of an answered query have a time step (`run_timed`). Names are distinct (checked by the constructor), so a reference belongs to one study.
* C119 (hyper-study) — `hyper_exact`: C29, C30, C31 for single fits that report the probabilities `ev` and the distributions `post`; instantiated with C01, C03, C04 for models without resets.
* C120 (online study) — `online_exact`: C40 with C01 and C03 for every hypothesis, then the formulas of `step` for finished models (`Finished.exact`, `online_facts`).
* C121 (online queries) — C120 with the sums over the axes of the hyper-grid (C34) and the look-up of names.
* C122 (online history) — C121 for the first data points, and the history as an invariant of the steps (C63).
* C123 (online calibration) — C120 under the joint distribution of hypothesis, path and data, with the conditional expectations of C98.
* C124 (stopping an online study) — C123 at a stopping time: joint distribution of hypothesis, current parameter values and data seen so far (marginalisation of later steps), with the stopping argument of C102; first time that a report reaches a threshold.
* C125 (calibrated change-points) — C111, C112 and C117 turned into statements about conditional probabilities, with the method of C100: joint density of combination, values of the pieces (or path) and data, renormalised prior of the combinations in order.
* C126 (change-points and walks) — C117 for models with resets: the number of resets is the same for all combinations in order, so that the factor cell^k of C02 cancels in the posterior distribution of the hyper-parameters; meaning of the model by two lemmas (at a change-point the past is forgotten, elsewhere the prior plays no role); calibration with the method of C125.
* C127 (infinite values) — Spec/Infinite.lean: numbers with two infinities, tables for the operators; the value of every expression in the specification is the floating-point value in the model (`float_query`), and `-1*(right) + l0 ± l1 …` is `left - right` also for infinite and undefined values (`float_reduced`).  Signed zeros are not modelled: `1/x` at zero is plus infinity.
* C128 (equivalent queries) — from the exact answers of C127; for parameters of different studies the expectation does not depend on the order of the variables (`expect_perm`).
* C129 (queries given the data) — `parserView` (Model/ParserView.lean) is what the parser reads from a fitted study (ravelled grids and posteriors); exact smoothing/filtering distributions (C03, C04) and exact answers (C127) are combined.
* C130 (queries about hyper-parameters) — `hyperView` (Model/ParserView.lean) is what the parser reads from a fitted hyper-study; the exact distributions of C119 and C111 and the exact answers of C127 are combined.
* C131 (queries on online studies) — `onlineView` (Model/ParserView.lean) is what the parser reads from an online study; the exact distributions of C120 and the exact answers of C127 are combined.
* C92 (A) algebraic laws of positions: the extent of a uniformly stretched image and the values of an equally spaced grid; composition with C34, C36, C43, C64.
* C93, C94 (A, I) idempotence of the clean-up, state before and after every plot.
* C91 (R) refinement between the fit on a grid and inference without grid, in the limit; Riemann sums on boxes, uniform convergence carried through every transition model, the forward and the backward pass.
* C90 (I, R) invariants of the attributes of model objects over all sessions; the fit with mutable objects refines the fit of Model/Fit.lean.
* C89 (I) simulation between the session and the session without the other studies.
* C88 (A) chain rule for scores, transformation of the Fisher information and of integrals.
* C87 (R, D) the expression of the code is the Fisher information; positive semidefinite, singular exactly for redundant parameters.
* C86 (R) masks without excluded entries are neutral; different values from the order of the points.
* C85 (R) lists with one element act as numbers in every compute function; induction over the nesting.
* C84 (R) agreement of predictions at the times that occur, induction over both passes.
* C83 (A) commuting symmetric kernels, permutation induction.
* C82 (I) the backward pass starts with a constant; sum of every filtered distribution is one.
* C81 (A) path sums, monotone in every factor.
* C80 (I) bounds of the norm of every forward step.
* C79 (R) simulation between two time axes, induction over both passes.
* C78 (A) results as sums over combinations with their probabilities; permutation invariance of the sums, filters of cartesian products.
* C77 (R) a joint run of the code and two separate runs, step by step (simulation: the state of the joint run is the product of the states).
* C76 (R) two runs of the code with differently labelled grids, step by step (simulation).
* C75 (R) two runs of the code in different units, step by step (simulation).
* C74 (A) closed form of the static fit for both portions.
* C73 (A) symmetry: reindexing of the sum over all paths (reversal of a path) with symmetric kernels.
* C72 (A) round trip of the grammar: mutual induction over the written forms of expressions, with one parser function per level of precedence; corollary with C47.
* C71 (R) incremental computation of an online study refines `HyperStudy.fit` (from C40 and C30).

## 4. Trusted base

* The kernel of Lean 4.33.0 (and, for building, Lake and the elaborator; proofs are re-checked by the kernel).
* The definitions of Mathlib that occur in statements (finite sums, ordered fields, `Real.exp`, `Real.log`, Lebesgue integral).
* Axioms: only `propext`, `Classical.choice` and `Quot.sound`; section 6 lists them for each theorem.  No `sorry`, no added axioms, no `native_decide`, no `bv_decide`, no
  `implemented_by`, no `unsafe` definitions.  `decide +kernel` (used for concrete rational witnesses) is checked by the kernel and adds no axiom.
* That the Lean definitions transcribe the Python text is by inspection; every definition cites the lines it models and states its simplifications.
* The behaviour of numpy, scipy and Python as described in section 1.

## 5. Where the code and the claims disagree

Each entry names the theorem that proves the disagreement, if there is one; the claims themselves were written from the documentation.

Fit and priors
* An ndarray prior is overwritten by the first forward step of `fit` (the array object is used as `alpha`): refits differ (`C15_refuted`), a HyperStudy depends on the order of its fits and
  on `nJobs` (`C29_refuted`, `C30_refuted`, `C31_refuted`, `C32_refuted`), `CombinedTransitionModel(m)` differs from `m` (`C21_refuted`), several change-points (`C22_refuted_array`).
* `_computePrior` divides by the cell volume only if the values do not sum to exactly one (`C16_refuted`).
* `forwardOnly` stores `norm * cell` as local evidence (wrong by the cell volume from the second step on, `C13_refuted`); the full fit stores values divided by the cell volume, NaN if a likelihood vanishes
  (`C14_refuted_cell`, `C14_refuted_zero`).
* ChangePoint and Serial resets multiply by the cell volume (Independent does not), so each reset changes the evidence by this factor (`C02_refuted_lattice`, `C61_refuted`, `C69_refuted`); resets ignore sympy priors
  (`C02_refuted_rvs`) and turn scalar-valued function priors into the constant one (`C02_refuted_const`).
* The backward pass uses the prior instead of a flat function at a reset (prior counted twice, `C05_refuted`) and `t - 1` instead of the preceding timestamp (`C06_refuted`, `C08_refuted`).
* RegimeSwitch applies its floor to an un-normalised array in the backward pass (`C12_refuted`).
* NotEqual on a uniform distribution divides zero by zero (`C18_uniform`).
* Deterministic: the cubic spline of `scipy.ndimage.shift` can give negative values (external function; hypothesis of the theorems).
* A prior `lambda x: x` returns the grid itself, which is then divided in place (`C113_refuted`).
* AlphaStableRandomWalk on a two-dimensional grid with an odd size raises ValueError (kernel shapes; modelled in `alphaFwd`).
* Kernel caches are not keyed on the grid (`C59_refuted`, `C59_bivariate_refuted`).
* `optimize()` on a model that has only change-/break-points optimises them, because the empty selection means "all" (`C58_refuted`).
* `loadData` with a wrong number of timestamps keeps the old ones (`C53_refuted`); a parameter with a single value raises IndexError (`C51_single`, `C54_exception`).
* Data shorter than `segmentLength` give an empty fit with `logEvidence = log(cell volume)`.

Hyper-parameters
* A hyper-parameter named `' '` breaks `_setSelectedHyperParameters` (`C25_refuted`); BivariateRandomWalk assigns a list given as third value to the second one, Deterministic drops lists of priors, Python-list
  priors are flattened (`C26_refuted`).
* `HyperStudy.fit` without observation model or data raises AttributeError/TypeError (`C27_refuted`); sympy hyper-priors are not normalised (`C28_refuted`); the value `'all'` is replaced by an array (`C33_refuted`);
  uninitialised memory enters the averaged local evidence (`C37_refuted`); the distribution queries multiply a view in place (`C35_refuted`, `C35_joint_refuted`); axes of length one are dropped (`C36_refuted`).
* ChangepointStudy with exactly one ordered combination raises ValueError or leaves stale distributions (`C38_refuted`); `getDurationDistribution` raises IndexError for some three-point models (`C39_refuted`).

OnlineStudy
* The time passed to transition models is always -1 (`C40_refuted`); model probabilities ignore the prior of the models and the cell volumes (`C41_refuted`, `C42_refuted`); several queries disagree with each other
  (`C44_refuted`); a failed query can leave the study unusable (`C45_refuted`).
* The local distribution of transition models after the first analysed step depends on the cell volumes of the hyper-grids (`C63_refuted`); `getParameterMeanValue` for a single time uses the time as an index
  into the distribution (`C64_refuted`).
* A step that fails its consistency check leaves the data point in the study; later steps fail too.

Parser
* Undefined values belong to neither of two complementary queries (`C46_refuted`); parameters at different times and derived quantities are combined as independent (`C48_refuted`); the histogram of a derived parameter loses its largest value (`C49_refuted`).
* A global time `t=…` is looked up in the first study only (hypothesis `Stamps.same`).

Observation models
* Bernoulli: `p` outside [0, 1] is set to zero in the parameter grid itself (a view), and has likelihood one for the observation 0 (`C56_outside`).
* Bernoulli without parameter values: the default grid contains 0 and 1, where the default prior is infinite, so every fit reports evidence zero (`C62_refuted`).  The same happens for constant data with Gaussian,
  Laplace and WhiteNoise, and for Poisson without any event (`C62_constant_refuted`).
* `computeJeffreysPriorAR1` counts one observation too many (`C66_refuted`), and for ScaledAR1 omits the factor √(1 - r²) of the change of parameters (`C66_scaled_refuted`).
* SymPy models never use a Jeffreys prior: the constructor passes `self.rv`, which it has not set, and catches the resulting AttributeError (`C68_refuted`, `C68_flat`).  A missing free symbol is
  noticed only when a likelihood is evaluated (`C67_missing`).  The likelihood in the docstring of NumPy lacks a minus sign in the exponent.
* Poisson uses `np.math.factorial`, which newer numpy versions do not have.

* C101: `HyperStudy.fit(forwardOnly=True)`: the averaged posterior distributions of early time steps depend on later data, because the single fits are averaged with the final hyper-parameter distribution (core.py 1358-1366); the docstring promises distributions that only incorporate the information of past data points.
* C103: the influence of the prior does not fade for a Gaussian random walk whose standard deviation is positive but smaller than 1/8 of the lattice constant. The radius of the filter of scipy is then zero, and the walk has no effect at all (`C103_narrow`, `C103_refuted`).
* C106: probabilities are kept as numbers of type `float64`, not as logarithms. A parameter value whose probability falls below `2^-1075` once gets the probability zero for all times (Static model): later data that prove this value are reported as impossible (`C106_refuted`) or lead to a wrong posterior distribution and evidence without any message (`C106_silent_refuted`).
* C110: an online study with the model NotEqual can reach a state in which all results are undefined forever although all data are possible (the same effect as in C70).
* C111: a candidate value of a change-point between two time stamps is silently treated as "no change" (transitionModels.py compares the time with `==`), so the distribution of the change-points is wrong (`C111_refuted`); so is a candidate equal to the last time stamp unless the cell volume is one (`C111_last_refuted`).
* C113: ChangePoint, Independent and SerialTransitionModel normalise the array which the prior function returns in place (transitionModels.py 303-312, 352-360, 804-813).  If the function returns its argument (`prior=lambda x: x`) the parameter grid is overwritten by the fit and the results are wrong (`C113_refuted`); if it returns an array of the user, that array is overwritten (`C113_held_refuted`).  The same happens if the grid array itself is passed as prior array (`C113_grid_refuted`).
* C116: a prior array of integers makes every fit fail with a `TypeError` (`C116_refuted`); a prior function with integer values fails as soon as the model returns to the prior (`C116_reset_refuted`); hyper-priors like `lambda x: 1` and integer arrays are rejected (`C116_hyper_refuted`); `setTransitionModelPrior([9, 1])` raises a `TypeError` instead of re-normalising (`C116_models_refuted`).
* C118: with several studies, the argument `t` of a query is looked up in the time stamps of the first study only (parser.py 288, 335) and used as an index for all studies: a query about a time at which another study has no data is answered with the distribution of another time (`C118_refuted`).
* C127: `left rel right` is evaluated as `left - right rel 0` (parser.py 381); where both sides are the same infinity the difference is nan and the values do not count: `1/x >= 1/x` has probability less than one if `x` can be zero (`C127_refuted`).
* C121: `getCurrentHyperParameterDistribution` takes `len` of all hyper-parameter values of the transition model (core.py 2756); if one of them is a plain number the query fails with a TypeError, also for the other hyper-parameters (`C121_number_refuted`).
* C128: `x@1 < y@2` and `y@2 > x@1` for two parameters of one study get different probabilities: for different parameters of one study at different time steps the distribution of the operand that comes first is used (parser.py 191-254; `C128_refuted`).
* C129: the answer is not the probability given the data if a query compares values at different time steps: they are treated as independent, so for a constant parameter `x@0 > x@1` gets probability 1/4 (`C129_refuted`).
* C92: the image drawn by `plot(name)` is stretched uniformly between the first and the last time stamp (core.py 1051-1055).  With time stamps that are not equally spaced it shows, at a time stamp, the
  distribution of another one (a warning is printed), while the curve of mean values is at the right place (`C92_times_refuted`); the same happens for hyper-parameter values of an online study that are
  not equally spaced, without warning (2876-2882, `C92_values_refuted`).  The bars of a duration distribution are as wide as the shortest duration (1918), so they overlap unless this is one step
  (`C92_duration_refuted`).  With a single time stamp `plot(name)` raises IndexError (1024, `C92_single_refuted`).
* C93: for models with one parameter `np.squeeze(np.apply_over_axes(np.sum, a, []))` is a view of `a`, so the clean-up of small values for the picture (1048) changes `posteriorSequence` itself
  (`C93_refuted`).  Plotting a hyper-parameter distribution twice shows different bars (C35, `C93_hyper_refuted`).
* C94: `OnlineStudy.plotParameterEvolution` converts the lists of the study to arrays, `posteriorMeanValues` also transposed, and converts them back only without exception (2372-2384).  After a plot with
  a wrong name `getParameterMeanValues` returns wrong values, and `step` fails at 2219 after having changed the state (`C94_refuted`).
* C91: with change-points between data points the evidence does not converge under refinement of the grid: it contains the cell volume once per change-point and goes to zero (`C91_refuted`).  In `_computePrior` (core.py 184-265) the initial
  distribution is a density, the one after a change-point (transitionModels.py 317-325) a density times the squared cell volume.
* C89, C90: transition-model objects point to the last study in which they were set (core.py 280-282): a study whose transition model is later set in another study is fitted with lattice constants and prior of the other one (`C89_refuted`).  The time offset of a part of a serial model is never reset, so that the object gives wrong results when it is later used as a transition model (`C89_part_refuted`, `C90_refuted`); kernels of random walks survive a change of the grid (`C90_kernel_refuted`, see C59); array priors are changed by fits (`C89_prior_refuted`, see C15).
* C87: a parameter with the name `x` is taken for the observation (`x = abc.x`, jeffreys.py 43), which leads to an exception or a wrong prior (`C87_refuted`).  The arguments of the returned function are in the order of a Python set of symbols, not in the order in which an observation model lists its parameters.
* C85: for a single combination `HyperStudy.fit` switches to `Study.fit` (core.py 1434-1441) without setting the hyper-parameter distribution (missing, or left over from an earlier fit) and without replacing
  the keyword `'all'`, so that a change-point with this value has no effect for data with two points; a function as hyper-prior of a single number is a ConfigurationError (1194-1201).
* C79, C84: in full fits results depend on the unit of time, and a change-point between two time stamps can have an effect, since the backward pass compares the change-point with `t - 1`
  (transitionModels.py 317) and not with the previous time stamp.
* C84: with a numpy array as prior, models that return their argument (Static) overwrite it further and models that copy (random walk of width zero) do not, so that later resets differ.
* C80: with change-points the evidence can exceed the product of the largest likelihoods (factor of the cell volume, cf. C02).
* C78: the averaged local evidences of a hyper-study (core.py 1410) are weighted with prior densities without the cell of the hyper-grid, so that they depend on the order (and spacing) of the
  entered values: listing 0, 2, 4 as 2, 0, 4 doubles them.
* C75: with a change-point the evidence depends on the unit in which the parameters are measured (consequence of the factor described at C02).
* C74: an array given as prior is converted to a density (division by the volume of the grid cells) only if it does not sum to exactly one (core.py 208-219).  A posterior distribution of a previous
  fit sums to one, so that a study with this prior reports an evidence that is multiplied by the cell volume; with rounding errors it depends on the last digit of the sum whether this happens.
* C72: the grammar of queries accepts a beginning of the text and ignores the rest (`parseAll` is not set).  An unknown name behind an operator on the left side is dropped together with everything
  that follows on this side (`mean - men > 2` is answered as `mean > 2`; theorem C72_ignored holds for all such queries), a single equals sign together with everything behind it (C72_equals).
  Function names are tried before parameter names, without regard to word boundaries: with the parameter `p` (Bernoulli model) and the hyper-parameter `log10pMin` (regime switches; both names are
  defaults), `log10pMin > -2` is read as `log10(p) > -2` (C72_refuted).  A sign alone is a number for the grammar, so that `2^-p` fails with a ValueError.

## 6. Axioms of each theorem

Output of `#print axioms` for all 460 theorems named in MANIFEST.json (all in namespace `Props`), grouped by the axioms. No theorem depends on any other axiom.

**`propext`, `Classical.choice`, `Quot.sound`** (443): C01_evidence_is_path_sum, C02_exact_factor, C02_partial, C02_refuted_lattice, C02_refuted_array, C02_refuted_const, C02_refuted_rvs, C03_filtering, C03_causal, C04_smoothing, C05_partial, C05_refuted, C06_partial, C06_refuted, C07_normalised, C07_distribution, C08_evidenceOnly, C08_full_or_zero, C08_partial, C70_modes, C08_refuted, C09_zero_iff_impossible, C10_components, C10_evidence, C10_prediction, C10_deletion, C100, C101_study, C101_hyper_refuted, C101_hyper_partial, C101_online, C102_watch, C102_forever, C102_models, C102_posterior, C103, C103_real, C103_narrow, C103_refuted, C104, C104_stop, C104_log, C104_bayes, C105, C105_real, C105_static_refuted, C106_refuted, C106_silent_refuted, C106_partial, C106_stop_partial, C106_walks_partial, C106_walks_stop_partial, C107, C107_set, C107_evidence, C107_compare, C107_real, C107_poisson, C107_bernoulli, C108_partial, C108_singles_partial, C108_size, C109_partial, C109_average, C109_local, C109_local_first, C109_exists, finished_close, hyp_close, C11_one_shot, C11_order, C110_partial, C110_notEqual_refuted, C111_partial, C111_refuted, C111_last_refuted, C112_partial, C113_partial, C113_refuted, C113_held_refuted, C113_grid_refuted, C114, C114_parameters, C114_models, C114_hyper, C115_time_partial, C115_duration_partial, C39_refuted, C116_partial, C116_hyper_partial, C116_refuted, C116_reset_refuted, C117_partial, C117_average_partial, C117_query_partial, C117_duration_partial, C117_segments, C118_partial, C118_distribution, C118_refuted, C119_partial, C119_query_partial, C119_joint_partial, C119_average_partial, C119_forward_partial, C12_forward, C12_partial, C12_refuted, C120_partial, C120_models_partial, C121_partial, C121_hyper_partial, C121_number_refuted, C122_partial, C122_hyper_partial, C123_partial, C123_full_partial, C124_partial, C124_watch_partial, C125_partial, C125_breaks_partial, C126_partial, C126_average_partial, C126_query_partial, C126_duration_partial, C126_meaning, C126_calibrated_partial, C127_partial, C127_separate_partial, C127_answered, C127_separate_answered, C127_refuted, C128_partial, C128_swap_partial, C128_swap_separate_partial, C128_refuted, C129_partial, C129_filtering_partial, C129_refuted, C13_exact, C13_product, C13_partial, C13_refuted, C130_partial, C130_changepoint_partial, C130_parameters_partial, C130_pieces_partial, C130_refuted, C131_partial, C131_hyper_partial, C131_history_partial, C14_exact, C14_partial, C14_refuted_cell, C14_refuted_zero, C15_partial, C15_refuted, C16_partial, C16_refuted, C17_regimeSwitch, C18_notEqual, C18_uniform, C19_walk, C19_total, C19_commute, C20_segment, C20_total, C20_constructor, C21_append, C21_predictions, C21_fit_combined, C21_fit_partial, C21_refuted, C22_changePoint, C22_several_partial, C22_refuted_array, C23_split, C24_step, C24_accumulated, C24_break, C25_all_partial, C25_selected_partial, C25_selected_error, C25_get, C25_unpack_partial, C26_partial, C26_proper, C26_refuted, C27_partial, C28_grid, C28_prior, C28_cell, C28_normalised_partial, C28_refuted, C29_partial, C29_between_partial, C29_refuted, C30_partial, C30_error_partial, C30_refuted, C31_partial, C31_zero_partial, C31_refuted, C32_partial, C32_refuted, C33_partial, C33_refuted, C34, C34_fit_partial, C35_partial, C35_refuted, C35_joint_refuted, C36_partial, C36_transpose_partial, C36_refuted, C37_partial, C37_refuted, C38_partial, C38_posterior_partial, C38_refused, C38_refuted, C39_partial, C40_partial, C40_constant_time, C40_refuted, C41_exact, C41_defined, C41_evidence, C41_partial, C41_refuted, C42_partial, C42_refuted, C43, C43_append, C44_parameters_partial, C44_alias_partial, C44_current_partial, C44_models_partial, C44_hyper_means_partial, C44_hyper_partial, C44_refuted, C44_current_model_partial, C45_partial, C45_history_partial, C45_recover_partial, C45_refuted, C46_partial, C46_bounds_partial, C46_refuted, C47, C47_separate, C47_operation, C48_partial, C48_refuted, C49_partial, C49_refuted, C50, C51_cint, C51_oint, C51_lattice, C51_single, C53_refuted, C54_set, C54_exception, C55, C55_average, C56_bernoulli, C56_outside, C56_components, C56_poisson, C57, C57_components, C57_missing, C57_gaussianMean, C58_partial, C58_selected, C58_none, C58_refuted, C59_partial, C59_rebuilt, C59_refuted, C59_bivariate_refuted, C60, C60_segments, C61_partial, C61_bernoulli, C61_countable_partial, C61_poisson, C61_real, C61_autoregressive, C61_refuted, C61_iterated_partial, C62_partial, C62_gaussianMean_partial, C62_refuted, C62_constant_refuted, C63_partial, C63_first_partial, C63_refuted, C64_parameters_partial, C64_current_partial, C64_hyper_partial, C64_refuted, C65_bernoulli, C65_poisson, C65_gaussian, C65_laplace, C65_whiteNoise, C65_gaussianMean, C66_partial, C66_scaled_partial, C66_errors, C66_steps, C66_refuted, C66_scaled_refuted, C67_scipy, C67_sympy, C67_order, C67_missing, C68_refuted, C69_partial, C69_real, C69_refuted, C70_partial, C70_observation, C70_notEqual_refuted, C71_partial, C71_refuted, C72_relation_partial, C72_distribution_partial, C72_meaning_partial, C72_chained, C72_ignored, C72_equals, C72_refuted, C73_mirror, C73, C73_break, C74_partial, C74_refuted, C75_partial, C75_refuted, C76_relabel, C76_sign, C77, C77_unused, C77_unused_full, C78_partial, C78_local_partial, C78_local_refuted, C79_partial, C79_origin, C79_shift, C79_refuted, C80_partial, C80_full_partial, C80_refuted, C81_evidence, C81_smoothing, C81_filtering, C81_notEqual_refuted, C82, C82_means, C83_predictions, C83, C83_changePoint_refuted, C84_partial, C84_array_refuted, C84_full_refuted, C85_partial, C85_refuted, C85_all_refuted, C85_prior_refuted, C86, C86_one, C86_converse, C86_single_refuted, C87_partial, C87_exception, C87_order, C87_gaussian, C87_laplace, C87_whiteNoise, C87_poisson, C87_bernoulli, C87_refuted, C88_density, C88_weight, C88_exception, C89_partial, C89_refuted, C89_part_refuted, C89_prior_refuted, C90_partial, C90_refuted, C90_kernel_refuted, C91_filtering_partial, C91_evidence_partial, C91_smoothing_partial, C91_expectation_partial, C91_exists, C91_unique, C91_refuted, C92_parameter_partial, C92_time, C92_hyper_parameter, C92_hyper, C92_joint_partial, C92_online_parameter_partial, C92_online_hyper_partial, C92_online_model, C92_times_refuted, C92_values_refuted, C92_duration_refuted, C92_single_refuted, C93_time, C93_several, C93_partial, C93_again, C93_hyper_partial, C93_online_partial, C93_online_several, C93_refuted, C93_hyper_refuted, C94_partial, C94_recover_partial, C94_refuted, C95, C95_filtering, C95_builtin, C96, C96_rate, C96_real, C96_discrete, C96_poisson, C96_bernoulli, C97, C98, C98_full, C98_real, C98_discrete, C99, C99_misleading

**`propext`, `Quot.sound`** (15): C10_missing, C116_models_partial, C116_hyper_refuted, C116_models_refuted, C118_time, C118_distribution_time, C25_refuted, C27_refuted, C36_marginal, C52_segments, C53_partial, C54_order, C59_current, C67_unknown, C67_numpy

**`propext`** (2): C68_partial, C68_flat
