# Formal model of quanted/esat: design

Lean 4.33.0 with single Mathlib modules. Everything lives under `lean/Verif/`:

* `Verif/Model/*.lean`: models of the functions in `/repo`, one definition per function or branch, each with a comment
  citing file and lines. Definitions are executable unless a square root or logarithm needs the real numbers. Exceptions and
  NaN are values.
* `Verif/Spec/*.lean`, `Verif/Lemmas/*.lean`: separate specifications and helper lemmas.
* `Verif/Props/*.lean`: the property theorems, with the specification each of them needs and, next to them, an `example` that
  meets the hypotheses in a concrete non-trivial case.

`MANIFEST.json` maps each property of `properties.jsonl` to its theorems, `AXIOMS.md` lists the axioms of each of them, and
`seeded/LOG.jsonl` records the deliberately wrong programs the theorems were tried against.

In that log `killed` means that the proof of at least one theorem of a claimed property, or of a lemma it depends on, no longer
checks after the edit. It does not by itself show that the statement became false. `survived` entries carry a note or name the
theorems tightened. `invalid` edits did not compile or did not apply, and `inconclusive` attempts ended without a verdict; neither
tests anything and neither is counted as killed.

## Naming and status

Theorem names start with the property id. `_partial` marks a theorem that establishes part of its property; its comment says
what is missing. `_refuted` marks a theorem that shows the code to violate (part of) the property; these theorems are as
general as we could make them ("for every input of this kind the claim fails"), not only one counterexample. A property is

* `proved` if the theorems establish its statement in full,
* `partial` if a part of the statement is proved and the rest is refuted; the note in the manifest tells which. There is no
  partial property whose rest is merely open.

C01–C107 state what the documentation or the purpose of the code promises, so many of them fail in part. C108 and later were
written while reading further code and state its exact behaviour; where that differs from the documentation the theorem
comment says **Disagreement**.

## Numbers, randomness, processes

* Python/NumPy floats and Rust `f32`/`f64` are idealised as elements of an ordered field (generic, or `ℝ` where roots or
  logarithms occur), except where a property is about rounding, overflow or underflow: C139–C146, C179–C180, C224–C226, C228–C230 and C258 evaluate the update formulas
  and the loss in IEEE arithmetic (`Model/Ieee.lean`, signed zeros, infinities, NaN, any order of the sums); C27/C79 signed
  byte model number, C52 `float32` underflow, rounding to digits as a function with bounded error in C136.
* NaN and division by zero are `none`. No theorem profits from Lean's `x / 0 = 0`: every modelled division is either guarded
  or carries a hypothesis that excludes zero.
* Random draws are arguments (universally quantified), so a theorem holds for every seed.
* A process pool is an arbitrary order of completion of its tasks.
* The file system is a map from locations to contents; path handling, opening of files and pickling are parameters with the
  few properties used (`Platform.Sane`, unpickling a pickled object returns it).

## What is modelled

| code | model | not modelled |
|------|-------|--------------|
| `esat/model/ls_nmf.py`, `rust/lib.rs:353-363` | `LsNmf`, `LoopStep` (exact), `Ieee`, `IeeeWeights` (floating point) | sign and payload of NaN |
| `esat/model/ws_nmf.py`, `rust/lib.rs:693-735` | `WsNmf`, `LoopStep` (exact), `Ieee` (H update) | the library matrix inverse (a parameter, assumed to invert invertible matrices) |
| `esat/metrics.py` and loss functions of `rust/lib.rs` | `Metrics` (exact), `Ieee` (floating point) | rounding of `q_factor` and of the correlations |
| training loops `rust/lib.rs:353-398`, `693-769`, `sa.py:430-464` | `TrainLoop`, `Training`, `FloatLoop` (floating point losses), `RobustAlpha` (NaN in the robust loss) | progress output, clock (arbitrary oracle) |
| array hand-over `sa.py:401-416`, `lib.rs:22-26,246-265,580-597` | `Layout` | non-contiguous arrays (the code panics) |
| GPU path `lib.rs:222-242,448-467,556-576,827-856` | `Gpu` (shapes and element types) | tensor values |
| `lib.rs:47-160` determinant, adjoint, inverse | `RustLinalg`, `RustPseudo` | device handling; `calculate_inverse` is dead code for training |
| `esat/model/sa.py` | `SA`, `SinglePrecision`, `SaveLoad` | `kmeans2`, `whiten` values and the generator (arguments), logging, metadata text, empty arrays (the constructor raises on `V.min()`) |
| `esat/model/batch_sa.py` | `Batch`, `BatchProgress`, `BatchCallback`, `BatchViews`, `SaveErrors`, `Utils` | logging, run time apart from the `min_limit` test |
| `esat/error/bootstrap.py` | `Bootstrap`, `SaveErrors`, `ErrorSummary`, `Quantile` (statistics table), `BsRun` (runs, process pools), `BsViews` | `float32` conversion, figures (only the numbers given to them) |
| `esat/error/displacement.py`, `esat/error/bs_disp.py` | `Displacement`, `DispRun`, `DispFault` (exceptions), `ModelNumbers`, `SaveErrors`, `ErrorSummary`, `BsDispSummary`, `DispFigures` (numbers given to the figures) | titles and colours of figures, logging |
| `esat/error/error.py` | `ErrorSummary` | figures |
| `esat/rotational/constrained.py` | `Constrained`, `Expressions`, `ConstrainedViews`, `Highlights`, `PullMatrices`, `ConstraintLists`, `ConstrainedTrain` | `lsq_linear` (an arbitrary minimiser), `int`/`float` parsing (parameters), figures |
| `esat/data/datahandler.py` | `DataHandler`, `Float32`, `Pipeline` (hand-over to the model), `Recombinator` (block size), `Quantile` (metrics, aggregation), `CliData` (reading: choice of the index column), `InputFigures` (figures) | csv and Excel parsing, infinities, colours and hover texts, correlations other than Pearson |
| `esat/model/recombinator.py` | `Recombinator` | float rounding |
| `esat/estimator.py` | `Estimator`, `EstimatorTable` | progress bars |
| `esat/utils.py` | `Utils`, `MemReport`, `Correlation`, `SaveErrors` (encoder) | memory query (argument) |
| `esat/data/analysis.py` | `Analysis`, `SolutionCmd`, `BatchViews`, `Mesh3d`, `TimeAxis`, `AnalysisTables`, `PlotAlignment` | the statistics of the normality tests, colours, layout of the figures |
| `esat/data/impute.py` | `Impute` | the scikit-learn imputers |
| `esat/data/test_tools.py` | `CompareTools`, `Fingerprints` | figures, time stamps |
| `esat/cli/esat_cli.py`, `esat/configs.py` | `Cli`, `CliData`, `CliSession`, `SolutionCmd`, `BatchViews`, `Setup`, `ConfigText` (interpolation of stored directories) | `click`, the file format of `configparser` |
| `eval/simulator.py` | `Simulator`, `SimState`, `SimCompare`, `SaveErrors`, `CliData` (commands) | figures, order of draws |
| `esat/main.py` | `Workflow` | the block length, the memory profiler, output |
| `eval/factor_comparison.py` | `FactorCompare`, `BestMatch`, `SimCompare` (PMF5 files), `BaseEstimate` | splitting lines at tabs |
| `eval/factor_catalog.py`, `eval/perturbation.py` | `FactorCatalog`, `CatalogTable`, `FactorCompare`, `PerturbRun`, `PerturbCompare`, `BaseEstimate`, `Quantile` (perturbation tables) | figures |
| `eval/runtime_test.py`, `eval/runtime_optimization.py` | `Runtime` (stored results, traces, benchmark lines) | reading data, the training itself, figures |

Not modelled at all: `notebooks/`, `conf.py`, and four scripts in `eval/` that cannot run against the pinned package:
`rust_functions_test.py` calls compiled functions that `lib.rs` does not export, and `rust_optimizations_test.py`,
`profile_compare_test.py` and `loss_value_test.py` pass parameters to `BatchSA` that it does not have.

## How it was proved

Loop invariants by induction over the number of evaluations or iterations, folds over dictionaries and lists, permutation
invariance for pools, the Lee–Seung auxiliary function for the monotone losses (C02, C77), normal equations for the
least-squares steps (C07, C114, C120), Laplace expansion by induction over the size (C60), case analysis on flags, texts and
shapes for the rest. `decide +kernel` is used for examples and concrete counterexamples only, never for a general claim.

## Trusted base

* The Lean 4.33.0 kernel and the axioms `propext`, `Classical.choice`, `Quot.sound`; no other axiom, no `sorry`, no
  `native_decide`, no `bv_decide`.
* The reading of `/repo` that the comments of `Verif/Model` document, including the behaviour of NumPy, pandas, SciPy,
  scikit-learn, candle, nalgebra, click and configparser that is stated there.

## Outcome per property

| id | title | status | where | outcome |
|----|-------|--------|-------|---------|
| C01 | LS-NMF update keeps factors non-negative | proved | LsNmf |  |
| C02 | LS-NMF never increases the loss | proved | LsNmf |  |
| C03 | LS-NMF zeros are permanent | proved | LsNmf |  |
| C04 | hold_h / delay_h honoured | proved | TrainLoop | Proved at the level of a single update, of a run and of the training loop, for both the Python and the compiled step. |
| C05 | LS-NMF does not depend on factor, sample or feature order | proved | LsNmf |  |
| C06 | An exact factorisation is a fixed point | proved | LsNmf |  |
| C07 | WS-NMF contribution step is the exact weighted least-squares solution | proved | WsNmf |  |
| C08 | WS-NMF keeps profiles non-negative | partial | WsNmf | Refuted for data with negative entries (the new profile is the root of a negative number). Proved for non-negative data with any inverse routine; for any data, non-negativity and preservation of zeros whenever the update yields real numbers. C08_iff_partial: exact condition in terms of the positive and negative parts of the new contributions. |
| C09 | Q(true) is a faithful goodness of fit | proved | Metrics |  |
| C10 | Q(robust) is the Huber-type loss and is bounded by Q(true) | proved | Metrics |  |
| C11 | Per-factor Q contributions add up | proved | Metrics |  |
| C12 | Training stops exactly when the documented criterion is met | proved | TrainLoop |  |
| C13 | Compiled and Python training agree | partial | TrainLoop | Refuted: the Python loop needs one more recorded loss before testing the criterion, raises TypeError for ws-nmf (no hold_h parameter) and IndexError for converge_n = 0. C13_agree_iff: for ls-nmf with numeric losses and converge_n >= 1 the paths agree exactly unless the criterion holds at the first iteration at which the compiled loop tests it and max_iter reaches it. |
| C14 | Progress reports are complete and ordered | proved | TrainLoop |  |
| C15 | A NaN loss does not masquerade as convergence | partial | TrainLoop | Compiled loop proved: a converged run always has a numeric loss and NaN propagates to the end. Python loop: proved for a fresh model, refuted for re-training (converged flag is never reset). C15_python_iff_partial: a Python run that ends with a NaN loss reports convergence iff the flag was set before it. |
| C16 | Reported results are mutually consistent | proved | SA |  |
| C17 | Memory layout of the arrays does not matter | partial | Layout | Refuted for row-major data, column-major factors and re-training; proved for column-major data, row-major factors and for vectors. C17_iff_partial: exactly which arrays are read correctly (square row-major data: the symmetric ones, C17_square_partial); C17_shape_iff_partial: all arrays of a shape iff it has at most one row or column. |
| C18 | Uncertainties are always usable weights | proved | SA |  |
| C19 | initialize() yields a valid starting point | partial | SA | Proved: exact condition for validation, default initialisation for non-negative data, user-supplied factors, prior profiles (including the exact outcome for columns that sum to zero). Refuted: negative column mean (never validated), user-supplied negative W and init_method containing 'update' (LS-NMF gets negative contributions), integer H with zeros, priors cancelling the sampled rows of a column (infinite profile entries in a model that counts as validated, NaN where an entry is zero). Data with NaN make SciPy's whiten (init_norm=True) or kmeans2 raise before factors are built. |
| C20 | initialize() does not modify the caller's arrays | partial | SA | Refuted for every full-shape float H with an entry <= 0 (floored in place). Proved for W and for every other H. |
| C21 | train() return value tells the truth | partial | SA | Proved for all call sequences, with two exceptions on a never-initialised object: the automatic initialisation changes the object even when train then returns -1 (refuted for a negative mean), and with NaN in the data train raises from SciPy's whiten instead of returning -1 (refuted for every algorithm). |
| C22 | Algorithm choice respects negative data | proved | SA |  |
| C23 | save()/load() respect the path contract | partial | SaveErrors, SaveLoad | Path contract, frame property, exact return values of load and pickle round trip proved, also for batches (one file or one file per model); 'None in all other cases' refuted (exceptions escape), text saving of a batch without header refuted. |
| C24 | best_model is the model with the lowest loss | partial | Batch | Proved for both modes when at least one loss is a number. Disagreement: if all losses are NaN the run succeeds with best_model = -2 (C24_all_nan_refuted). C24_iff_partial: in both modes best_model is the index of a model exactly if some loss is a number. |
| C25 | Batch results do not depend on scheduling | partial | Batch | Schedule independence and own-index placement proved. Parallel = sequential proved where delay_h has no effect and H, W are not 3-D; refuted for delay_h (dropped by the sequential branch) and for 3-D H/W (sequential branch passes them unsliced). C25_iff_partial: exact condition, model by model. |
| C26 | Model seeds are reproducible and extendable | partial | Batch | Seed of model t is the t-th draw (C25_own_index), extending a batch keeps earlier models. Disagreement: a second train() call on the same object continues the generator (C26_retrain_refuted). |
| C27 | Any number of models can be run | partial | Batch | Refuted: with the compiled training no batch of more than 127 models succeeds (i8 model number). Proved up to 127 models; C27_iff_partial gives the exact condition in the parallel and the sequential mode. |
| C28 | A failed batch run is reported | proved | Batch |  |
| C29 | Block bootstrap preserves shape and pairing | partial | Bootstrap | Proved for all sizes, draws and block sizes up to half the rows, with and without overlap, and for plain resampling. Refuted for larger block sizes: the code raises instead of reducing the block size as documented. C29_iff_partial is the exact condition for success. |
| C30 | Every sample can be drawn by the bootstrap | partial | Bootstrap | Refuted: the exclusive upper bound of the draw means the last row is never resampled. The exact set of reachable rows is proved; plain resampling reaches every row. |
| C31 | Bootstrap factor mapping picks the best correlated base factor | partial | Bootstrap | Proved whenever the correlation with the base factor of the same number is defined, including that mapping by contributions and by profiles agree. Refuted otherwise: a constant profile is reported as unmapped even if another factor fits perfectly. C31_iff_partial says exactly when a factor is reported as mapped. |
| C32 | Bootstrap mapping table conserves runs | proved | Bootstrap |  |
| C33 | Displacement increase search brackets its target | proved | Displacement |  |
| C34 | Displacement decrease search stays between zero and base | partial | Displacement | Range, at most 26 evaluations, and the exact meaning of a met window are proved for every loss. Refuted: the search can end outside the window although the step limit of 50 is not reached (it never is). |
| C35 | Displacement results are complete | partial | Displacement | Completeness proved for sequential runs and every parallel completion order. Excluded features carry the base profile; for concentrations below 1e-4 this is refuted because both ends are raised to the floor. C35_conc_iff gives the exact values. |
| C36 | Swap counts are attributed to the right factor | partial | Displacement | Proved for sequential runs and for parallel runs whose factors finish in order; refuted for other orders (columns follow the completion order). C36_iff_partial: a pair of completion orders gives the right table for all outcomes iff the factors first answer in the order of their numbers. |
| C37 | Swap table rows are labelled with their dQ level | partial | Displacement | Refuted: labels are reversed while the rows are not, so with an even number of distinct levels every row is mislabelled. C37_correct_iff: exactly which rows are right (all of them only for a list of levels that reads the same in both directions). |
| C38 | Swap percentages are percentages | proved | Displacement |  |
| C39 | BS-DISP intervals cover every bootstrap run | partial | Displacement | Refuted: the run with the largest key never influences the result and the lower profile end of later runs is merged with the wrong column. Proved for the first run and for the remaining columns of runs 1 .. len-1. C39_exact_partial gives every merged column exactly for runs stored in order, and the exact condition under which a run's lower profile end is covered. |
| C40 | BS-DISP can run its displacement stage in parallel | partial | Displacement | Refuted: the parallel stage always raises (one tuple passed to a function of eight parameters). The sequential stage is proved to store every run. |
| C41 | At most one constraint per factor element | partial | Constrained | Proved for feature and sample targets over any history; add, reject and remove are characterised exactly. Refuted for misspelt targets: they get the blank label without any check and address the contributions, so one element can carry two constraints. C41_element_partial: at most one constraint per profile entry and two per contribution, in any history. |
| C42 | Accepted constraints address existing elements | partial | Constrained | Proved for feature constraints. Refuted for sample constraints: the second index is compared with the number of samples instead of factors. C42_sample_iff: right exactly for as many samples as factors. |
| C43 | A limits constraint pulls the element into its limits | partial | Constrained, ConstrainedPull | What is handed to the update is given exactly, for profiles and contributions, whatever the other constraints are (C43_handed_partial), and exactly when it is the current value moved into the limits (C43_iff_partial): below the lower limit and at zero. Refuted inside (value doubled) and above (moved further up). |
| C44 | A zero constraint gives (numerically) zero | proved | Constrained, PullMatrices |  C44_expressions states the same for the iteration with expressions. |
| C45 | Expressions are parsed as written | proved | Expressions |  |
| C46 | Expression pulls respect the dQ budget | proved | Expressions |  |
| C47 | Pull-to-value never overshoots | partial | Constrained | Proved: pull to value for all losses; pull down for positive and pull up for non-negative entries. Refuted: pull down raises zero entries to 1e-8 and moves negative entries up, pull up moves negative entries down. Exact conditions: C47_down_iff (positive entries), C47_up_iff (for any limit and sign). |
| C48 | Q(aux) measures departure from target | proved | Constrained |  |
| C49 | A saved constrained model can be loaded back | partial | Constrained | Refuted: save returns None on success, raises before training, and the pickle holds the inner SA object, which load returns. C49_load_fails_partial says exactly when load returns None and when it raises. |
| C50 | Feature categories take effect exactly as set | proved | DataHandler | Any history of set_category calls on a loaded handler, valid calls for feature columns and arbitrary invalid calls; get_data equals an independent specification from the last category of each feature. A category for a dropped or location column makes get_data raise (C50_dropped_column). |
| C51 | No missing values reach the model | partial | DataHandler | Refuted: only rows with a missing value in both frames are removed (datahandler.py: the mask uses or), so a missing data value with complete uncertainties reaches the model. C51_partial characterises exactly when the arrays are free of NaN. |
| C52 | No zeros reach the model | partial | DataHandler | Refuted: the replacement sys.float_info.min is stored in a float32 array and becomes 0. C52_partial: no zero whenever the replacement survives the conversion; C190_data: for the IEEE conversion, exactly which tables give zeros. |
| C53 | Splitting by location loses nothing | partial | DataHandler | Proved for numeric cells and present location values; one missing location value makes split_locations raise ZeroDivisionError (C53_nan_refuted: no row matches NaN and loading the empty frame divides by zero). C53_iff_partial: for numeric rows splitting succeeds exactly if no loaded row misses a location value. |
| C54 | Merging handlers loses nothing | proved | DataHandler | Acceptance is exact (column lists equal in order, one label each, non-empty); row content, order and label proved. |
| C55 | Factor estimator splits cells into train and test | partial | Estimator | Refuted: i_mask is all ones after the two in-place assignments, so the test error is the error over all cells and does not depend on the mask; the model is trained on all cells as well. C55_train_partial: the training error is the mean over the masked cells. |
| C56 | Factor estimate is well defined and schedule independent | partial | Estimator | Schedule independence proved over exact arithmetic (floating point sums can differ in the last digits). Estimate in range proved unless all test errors are zero (then -1) or there is a single factor number (then np.max of an empty list raises): C56_range_refuted. C56_iff_partial is the exact condition for an estimate in range. |
| C57 | Optimal block length is within bounds | proved | Recombinator | Bound proved for every length that is a number; positive exactly when the weighted auto-covariance sum does not vanish (C57_positive); for vanishing sums the code returns 0 or NaN. |
| C58 | Lag matrix rows are the lagged series | proved | Recombinator | Any number of columns and lags. |
| C59 | The flat-top kernel is a valid taper | proved | Recombinator | Over any ordered field. |
| C60 | The compiled matrix inverse is the inverse | partial | RustLinalg | Determinant and adjoint proved for every size; inverse proved for size 2 and up, refuted for 1x1 and under candle's strict to_scalar. The function is not called by the training code. |
| C61 | Factor swap detection is sound and complete | proved | Utils | Iff, with undefined correlations (constant profiles) treated as in NumPy: they never cause a report (C61_constant). |
| C62 | Memory estimate never recommends more cores than fit | proved | Utils | Holds and the recommendation is the largest such number. |
| C63 | Synthetic data are positive | proved | Simulator | Profiles, updated contributions, data and uncertainties are positive for all draws. Data need a non-zero outlier magnitude when outliers are on (otherwise NaN). |
| C64 | Outliers are injected at the documented rate and size | proved | Simulator | Holds for rates up to one and non-zero magnitude, in exact arithmetic; the code multiplies and then divides most cells, which is the identity only up to rounding in floating point. |
| C65 | Every contribution curve fits the sample count | partial | Simulator | Increasing, decreasing and uniform curves always succeed. Exact success conditions are proved for logistic (frequency at most one) and periodic (enough samples per period) curves; both fail otherwise, e.g. 17 samples with the default frequency. |
| C66 | FactorCompare finds the best factor assignment | partial | FactorCompare | Proved for both directions whenever a result exists, with the exact existence condition (some positive average). Refuted in that a constant (NaN) factor makes compare raise. |
| C67 | Perturbation factor map is a one-to-one map from base to model factors | partial | FactorCompare | Only one-to-one-ness holds, when the column optima are distinct. The returned map is the inverse of the matching, the reported metric is that of another pair, and with collisions the map is not one-to-one and values are arrays or -1. |
| C68 | The factor catalog is a partition | partial | FactorCatalog | Proved for all histories; exceptions excluded for raae thresholds below one and positive thresholds otherwise, refuted outside. |
| C69 | Catalog occurrence percentages use the right model count | partial | FactorCatalog | Exact value proved: 2*(n/2) after n models in order; right iff n is even (C69_iff_partial), division by zero for n = 1, and later batches are not counted. |
| C70 | perturb_percent controls how many cells are perturbed | partial | FactorCatalog | Results are positive and every cell is multiplied by the reported multiplier; the percentage has no effect, and int parameters raise. |
| C71 | Selecting one error method is enough to view its results | partial | Cli | Refuted: the guard tests all instead of any, so with exactly one flag nothing is shown; C71_shown_iff gives the exact behaviour for all flag combinations (all three flags are needed and then only DISP is shown). |
| C72 | CLI stages find each other's files | partial | Cli | Proved for absolute directories equal to the recorded one (batch, error and constrained files). Refuted: run_error reads constrained_<name>.pkl while constrained_model-<name>.pkl is written; relative directories save nothing; moved projects are written and read in different places. C72_iff_partial: exact condition for a directory argument that differs from the recorded one. C72_load_iff_partial states exactly what loading a pickled batch does, including a damaged file. |
| C73 | Reported RMSE is the root mean square error | partial | Analysis | Refuted: the root of the sum is divided by 14; the value is the RMSE exactly for 196 samples (C73_correct_iff). |
| C74 | Factor fingerprints are percentages of each feature | proved | Analysis | Proved for non-negative profiles and positive column sum; NaN exactly for features with an all-zero column. |
| C75 | GPU training gives the CPU result | partial | Gpu | Refuted: on a CUDA machine the loss is read with the wrong element type in the first iteration, so train returns False for every shape; LS-NMF also passes the factors transposed. |
| C76 | Saving a model as text writes every file | partial | SaveLoad | Refuted for the default header and for untrained models (exception after some files are written); proved with a header. C76_iff_partial: with openable files the call returns exactly if a header was passed and all four arrays exist. |
| C77 | A WS-NMF update never increases the weighted loss | partial | WsNmf | Refuted when the recomputed contributions contain negative entries, also for positive data (C253_rises); proved when they are non-negative. C252 gives the amount by which the loss then falls, C253 bounds the rise in the general case. |
| C78 | Compiling bootstrap results leaves the trained models unchanged | partial | Bootstrap | Refuted: entries below 1e-6 of the trained profiles are set to zero in place. Proved: nothing else changes. |
| C79 | Error methods work for any number of runs | partial | Displacement | Refuted above 127 runs or tasks (signed byte model number); proved up to 127. C79_iff_partial: each stage succeeds iff it has at most 127 tasks, and what the bootstrap then returns. |
| C80 | Displacement intervals contain the base value | proved | Displacement |  |
| C81 | A decrease of the loss during displacement is reported | partial | Displacement | Refuted: only negative values of base minus new loss are kept, so a decrease of the loss is reported as zero. C81_value: the reported number is minus the larger of the two increases of the loss, or zero; C81_sign: never positive. |
| C82 | Constrained training stops exactly at convergence | proved | Constrained |  |
| C83 | Pull searches respect the dQ limit | partial | Constrained, ConstrainedPull | Proved when the target itself respects the limit; 'pull up' located between consecutive powers of two and within one part in 2^29 of a value that respects the limit (C83_up_partial). Refuted: pull down compounds its factors and cannot move back up, pull to value moves towards the target when the limit is exceeded, pull up may end above the limit, and with a limit of at most 100 it often does not move the value at all. |
| C84 | The coefficient used for an element is the one written | partial | Expressions | Proved: the coefficient used is the first one written for the element in that expression. Refuted for repeated elements and a leading minus sign. C84_total_iff_partial: the coefficient used is the total one exactly if the later occurrences cancel. |
| C85 | Expression pulls aim at the equation | partial | Expressions | Refuted: the solver's right hand side is the sum of the current element values, so exact solutions violate the expression; the text right of = is never used. C85_correct_iff: a solution satisfies the expression exactly if that sum is zero. |
| C86 | Expression evaluation reads the constrained elements | partial | Expressions | Proved for profile elements. Refuted for contribution elements (indices swapped). C86_sample_iff: right exactly if sample and factor number are equal. |
| C87 | plot_Q plots Q(main) as the sum of Q(true) and Q(aux) | partial | Constrained | Refuted: two lists are concatenated. C87_correct_iff: right exactly for an empty history. |
| C88 | Plot data are available after loading | partial | DataHandler | Refuted: load_dataframe never builds the plot frames, and above max_plotting_n samples the aggregated frame is stored under another name. C88_iff_partial: exact condition. |
| C89 | A merged handler still produces data | partial | DataHandler | Refuted: the text column source_label is converted to float32 together with the data. C89_iff_partial: get_data of a merged handler succeeds exactly if source_label is among the dropped columns. |
| C90 | Split handlers exclude the location columns | partial | DataHandler | Refuted: split_locations passes neither the location columns nor the dropped column on; C90_all_columns: whenever it works, every column of the original is a feature of every split handler, so the features never agree. |
| C91 | Signal to noise ratio | proved | DataHandler | With missing numbers (skipped, but counted in the number of rows) and zero uncertainties; uncertainties are not negative. |
| C92 | Choice of the bandwidth for the block length | partial | Recombinator | The first half is proved; the fallback returns the array position of the largest significant lag, one less than the lag (C92_largest_refuted), which has no effect on the bandwidth for series with ceil(sqrt n) at least 6 (C92_harmless). |
| C93 | The block size of the data handler is usable | partial | Recombinator | Refuted: a constant feature makes the fallback int(features/5) apply, which is 0 for fewer than five features and can exceed the number of samples. C93_iff_partial: exact conditions for 1 <= block size and block size <= n in both cases. |
| C94 | min_timestep returns the smallest time step | partial | Utils | Refuted: the computed string is never returned (None), hourly data give "D", the last step is not looked at. C94_iff_partial: for timestamps in order the result is "D" exactly for fewer than three of them or a smallest step of one hour. |
| C95 | Default number of worker processes | partial | Utils | All parts proved except the documented default, which is refuted: three quarters of the recommended cores are used. C95_iff_partial: the documented default is used exactly on machines with two cores, and with three or four if the memory suffices. |
| C96 | The factor estimate minimises the penalised test error | partial | Estimator | Proved for positive errors; refuted when some error is zero: a perfect fit is never chosen. C96_iff_partial: the estimate minimises error times power exactly if no mean error is zero. |
| C97 | Random profiles of the simulator | partial | Simulator | Exact condition: at least two factors. A single factor raises in rng.integers(1, 1). |
| C98 | Custom profiles of the simulator | partial | Simulator | Exact shape and fewer rows behave as stated, more rows raise; refuted for a single column, which is broadcast over all features (C98_column_refuted, for every number of features other than one). C98_accepted_iff_partial: exactly which shapes are accepted. |
| C99 | Contribution curves stay between minimum and maximum | partial | Simulator | Proved for the four shaped curves; the minimum is ignored by the uniform curve, which stays within the bounds exactly for a minimum of at most zero and a maximum of at least zero (C99_uniform_iff_partial). |
| C100 | Failed models are skipped in the factor comparison | partial | FactorCompare | C100_compared_iff: the comparison works exactly if all failed models come after all others; otherwise KeyError (C100_failed_model_refuted). |
| C101 | Printed base loss | partial | FactorCompare | Refuted: the data are passed in place of the uncertainty. C101_base_loss: right if the uncertainties equal the data, too small for positive uncertainties below the data unless the fit is exact. C101_iff_partial: right for every base solution only if the uncertainties equal the data. |
| C102 | EMC metric | proved | FactorCompare | For non-zero mean contribution of the first factor and non-zero profile totals. |
| C103 | RAAE metric | proved | FactorCompare |  |
| C104 | Admission to a catalog entry | partial | FactorCatalog | Best entry proved; the threshold is applied to the mean over the members, not to each of them. C104_join_partial: a joined factor meets the threshold in the mean and with at least one member; C104_close_partial: a factor that meets it with all members of some entry never starts a new one. |
| C105 | compare_factor returns the most similar entry | partial | FactorCatalog | Highest metric proved; for raae this is the least similar entry. C105_iff_partial: for raae the result is a most similar entry exactly if all defined mean errors are equal. |
| C106 | Catalog with profiles only | partial | FactorCatalog | Holds for corr/emc with a single entry; with raae (the default) copies open new entries. C106_copies_partial: for every number of copies, corr/emc make one entry, raae with profile_only makes one entry per copy (or raises for a threshold of at least one), raae without profile_only makes one. |
| C107 | Outlier models are excluded from the catalog | proved | FactorCatalog |  |
| C108 | BS-DISP from the command line | proved | Cli | Discrepancy: BS-DISP alone raises AttributeError. |
| C109 | Features of the BS-DISP stage | proved | Cli | Discrepancy: [bsdisp] features are ignored. |
| C110 | Boolean settings in configuration files | proved | Cli | Discrepancy: init_norm = False and outliers = False in a configuration file mean true. |
| C111 | Factor indices of the plot commands | proved | Cli | Discrepancy: the documented default shows nothing. |
| C112 | Analysis commands use unprocessed data | proved | Cli, SolutionCmd | Discrepancy: the commands always raise; C112_commands lists them by name with the full model of the commands. |
| C113 | Reachable commands | proved | Cli | Discrepancy: duplicate command name. |
| C114 | Regression statistics of a feature | proved | Analysis |  |
| C115 | Average of the normalised contributions | proved | Analysis | Discrepancy: two of three labels are wrong. |
| C116 | Contribution threshold | proved | Analysis | Discrepancy: thresholds above 50 are accepted. |
| C117 | Labels of the residual curves | proved | Analysis | Discrepancy: labels shift after failed models without a data handler. |
| C118 | Three-dimensional factor plot | proved | Analysis | Discrepancy: both raises IndexError. |
| C119 | Percentages of the surface plot | proved | Analysis | Discrepancy: documented as share of the sum of all factors. |
| C120 | Lines of the observed/estimated plot | proved | Analysis |  |
| C121 | Data for the plots | proved | Analysis | Discrepancy: aggregated input is assigned to V_prime_plot, input_data_plot stays None. |
| C122 | Plot titles | proved | Analysis | Discrepancy: the default None raises TypeError. |
| C123 | Concentration bars | proved | Analysis |  |
| C124 | Concentration axis | proved | Analysis | Discrepancy: concentrations below one are cut off. |
| C125 | Saving and loading error estimates | proved | SaveErrors | Proved. The simulator returns True/False instead of a path. |
| C126 | Return value of Bootstrap.save | proved | SaveErrors | Proved as stated; it disagrees with the docstring (the path on success). |
| C127 | BS-DISP results saved as text | proved | SaveErrors | Proved as stated; it disagrees with the docstring. |
| C128 | JSON files of the error estimates | proved | SaveErrors | Proved for the value type PyVal (None, booleans, numbers, texts, numpy numbers and arrays, lists, dictionaries with text keys, other objects). |
| C129 | Swap and count tables of BS-DISP | proved | ErrorSummary | Proved. The counters are not reset, so a second run adds to the first (C129_tables); swap entries never exceed count entries (C129_percentages). |
| C130 | Number of Q drops of BS-DISP | proved | ErrorSummary | Proved as stated; the loop ends before the last key, so the last run is missed. |
| C131 | Number of best-fit swaps | proved | ErrorSummary | Proved. |
| C132 | Largest change of Q | proved | ErrorSummary | Proved. C81_sign shows that the columns have no positive entries. |
| C133 | Rows of the displacement plots | proved | ErrorSummary | Proved for distinct levels. |
| C134 | dQ level of the plots | proved | ErrorSummary | Proved. Disagreement with the docstring of BSDISP.plot_profile and plot_contribution recorded in C134_bsdisp. |
| C135 | Bootstrap summary changes the base model | proved | ErrorSummary | Proved as stated; base_H is the array of the base model, so a summary changes the model. |
| C136 | Tables of the bootstrap runs | proved | ErrorSummary | Proved. Rounding is any function with bounded error. |
| C137 | Order of the factors in the bootstrap tables | proved | ErrorSummary | Proved as stated; the documentation maps bootstrap factors to base factors. |
| C138 | Combined error plot | proved | ErrorSummary | Proved. Figures are represented by the numbers given to plotly. |
| C139 | Signs in floating point | proved | Ieee | Arbitrary symmetric rounding of magnitudes (overflow and underflow included), arbitrary order, grouping and fusing of the sums. Inputs with -0 are excluded: x / -0 would be negative. |
| C140 | Zeros in floating point | proved | Ieee | Same arithmetic as C139. |
| C141 | Sign of the computed loss | proved | Ieee | Same arithmetic as C139; no hypothesis on the inputs. |
| C142 | ws-nmf profiles in floating point | proved | Ieee | The products with the diagonal weight matrix and the new W are arbitrary, so the claim covers the NumPy and the compiled version. |
| C143 | Spread of NaN | proved | Ieee | At least one sample, feature and factor. |
| C144 | Underflow and overflow | proved | Ieee | Two concrete evaluations in binary32. |
| C145 | Accuracy of the update | proved | Ieee | C145_format shows the accuracy hypothesis for every binary format, C145_binary32 for float32; C145_exact identifies the exact update with the model used by the other ls-nmf theorems. |
| C146 | Loss in single precision | proved | Ieee | One concrete evaluation in binary32. |
| C147 | Creating a DataImputer | proved | Impute | Disagreement with the documentation: the class cannot be used. |
| C148 | Imputing missing values | proved | Impute | impute is modelled for an object created in some other way. The scikit-learn imputers are an arbitrary function for the missing cells. |
| C149 | Standardised profiles in the comparison with PMF5 | proved | CompareTools |  |
| C150 | Figures of the comparison with PMF5 | proved | CompareTools | The label of the count says strictly above the threshold. |
| C151 | Training converges | proved | Training | Proved for the compiled and the Python loop in exact arithmetic, from positive starting factors, data without empty rows or columns and non-zero uncertainties. |
| C152 | A tolerance of zero | proved | Training | Proved for the compiled loop. |
| C153 | Bounds during training | proved | Training | Proved for every schedule of H updates. |
| C154 | Limits of training | proved | Settled, Training | Proved over the reals for endless sequences of updates (C154_settled: without assuming that the update of the limit is defined) and for the results of longer and longer compiled runs (C154_runs); whether the factors converge at all is not claimed. |
| C155 | One factor | proved | Training | Proved for every weight matrix without negative entries. |
| C156 | Uncertainties of the robust loss | proved | Training | Proved; the reported robust loss is shown to increase in a case in which the reweighted loss decreases. |
| C157 | robust_mode | proved | Training | Proved: the parameters are only stored in the metadata. Disagreement with the documentation, which the second theorem shows to describe different factors. |
| C158 | Fixed points of ws-nmf | proved | WsFixed | The square-root multiplicative step of ws-nmf is the one of semi-NMF, but it splits the product of positive and negative parts of W differently from the derivation: the fixed points are not stationary points of the loss when contributions are negative. C158_exact with its example shows an exact factorisation which an update destroys. |
| C159 | A single feature under ws-nmf | proved | WsFixed | The smallest case of C158: with a negative sample the profile is multiplied by a factor above one for ever. |
| C160 | The table of constraints | proved | ConstrainedViews | Constraints with a target other than feature and sample are left out of C160_raises_iff. The second index of a constraint on a contribution is compared with the number of samples in add_constraint, hence the second condition. |
| C161 | The table of expressions | proved | ConstrainedViews | Elements of type sample are covered by C86 (the table reads another entry). Each element at most once per expression, as in C84. |
| C162 | Figures of the constrained model | proved | ConstrainedViews | Disagreement: exchanged titles in ConstrainedModel.plot_g_space. The highlighting of constrained elements in plot_profile (constrained.py:930-944) is computed but not used in the figure and is not modelled. |
| C163 | The response of the displacement search | proved | DispInterval | The loss evaluated by the searches is q_loss with the base contributions; base_Q is the loss before EPSILON is added to the profiles and enters as a separate constant. |
| C164 | Closed form of the displacement interval | proved | DispInterval | Exact arithmetic. The reach conditions are explicit hypotheses; an instance is checked beside the theorems. |
| C165 | Soundness of the displacement interval | proved | DispInterval | Holds without any assumption of optimality. The converse (that refitting reaches no further) is false in general and not claimed. |
| C166 | Mean columns of BS-DISP | proved | BsDispSummary | The means are wrong in general: run B, the last key, is missing and the first-finished run is counted twice (or, if it is run B itself, all is well). The same loop bounds were recorded for the drops in C130. |
| C167 | Units of an ls-nmf run | proved | PyUnits, Units | Over any ordered field; both algorithms run by the Rust loop. Scaling of a factor of the starting point is a special case (r = c = 1). |
| C168 | Units of a ws-nmf run | proved | Units | EPSILON makes the profile update of ws-nmf depend on the unit of a feature (disagreement with the documentation, which describes a scale-free method). |
| C169 | Units of the default starting point | proved | Units | About half of the entries of the default start are floored at 1e-12, in every unit (C10); those entries are what depends on the unit. |
| C170 | How often a row is drawn by the block bootstrap | proved | BootstrapCounts | Disagreement: rows of the last block are never drawn without overlap; with overlap the rows at both ends are under-represented. The statement counts over all sequences of draws, each equally likely. |
| C171 | Percentile columns | proved | Quantile | Exact numbers; pandas and numpy interpolate linearly by default. |
| C172 | Bootstrap statistics table | proved | Quantile | The table value of a run is rounded to four decimals (np.round, ties to even) and the base value is not: exact reproduction counts as outside the IQR in general (C172_identical). The standard deviation is represented by its square. |
| C173 | Metrics of the input data | proved | Quantile | NaN as missing values. |
| C174 | Perturbation statistics | proved | Quantile | The factor index 1 is written into the code (perturbation.py:248). Zeros are written over the difference where the mean is below 1e-6. |
| C175 | Aggregation for plots | proved | Quantile | Disagreement with the purpose of the function: the aggregated series is sorted by size (C175_groups) and repeated values raise a ValueError because the labels no longer fit the edges (C175_ties). |
| C176 | Reading the data files | proved | CliData | Exact characterisation. Disagreements: `index_col=0` is ignored (`if index_col:`), and every value from a configuration file is text, so the default 0 of `setup` is looked up as a column name. Column names of a file are distinct (pandas makes them so); negative positions are not modelled. |
| C177 | Simulator commands | proved | CliData | Exact characterisation of the data used by `run`, `estimate`, `compare` and `plot` for any history. Disagreement: `run` trains on data that are not the ones saved, since `get_data` draws again. Writing always succeeds; what `run` writes to `output` is left out. |
| C178 | Configuration of a constrained run | proved | CliData | Exact characterisation; indices have two entries, as in the default configuration. |
| C179 | Convergence with infinite losses | proved | FloatLoop | Exact characterisation of both loops on sequences of IEEE losses. Disagreement: a finite loss followed by an overflow is reported as convergence. |
| C180 | Convergence test in floating point | proved | FloatLoop | Sterbenz' lemma and monotonicity of rounding to nearest, proved for all binary formats with the rounding of Model/Ieee.lean. For single precision and a loss above 2^21 the spacing is at least 1/4, so the default tolerance 0.1 then means no drop at all. |
| C181 | Process pools | proved | BsRun | C181_given records the disagreement that BSDISP(cores=…) has no effect. |
| C182 | Bootstrap runs with and without workers | proved | BsRun | Resampling, training and mapping are arbitrary functions of the seed and may fail. C182_order gives the order of the entries on a new object. |
| C183 | Comparison in the simulator | proved | SimCompare | C183_state and C183_scale record disagreements: selecting a model stores a batch without comparing it; the profile bars depend on the scale of the factors. |
| C184 | Reading PMF5 output | proved | SimCompare | C184_never records the disagreement that load_pmf_output never returns an instance. Cells are given after splitting the lines at the tabs. C184_exact says exactly when an object is made and with which factors. |
| C185 | Perturbation runs and figures | proved | PerturbRun | C185_metrics records the disagreement that the metrics are arranged by the mapping twice. |
| C186 | Matrices in the factor catalog | proved | CatalogMatrix |  |
| C187 | Solution commands | proved | SolutionCmd | C187_figures records the disagreement that six commands never show anything: the handler they create has not processed the data. Whether the library functions work on given numbers is a parameter. C187_fits says for every state of the analysis when plot_estimated_observed and plot_estimated_timeseries show a figure or raise. |
| C188 | Residual histogram | proved | SolutionCmd |  |
| C189 | Progress reports of a batch | proved | BatchProgress | Transition system with the atomic queue operations as steps; all interleavings. Disagreement between the modes: sequentially an exception of the callback is dropped (`let _ = cb.call1`) and the callback goes on being called, in parallel it ends the listener thread and later reports are silently dropped (C189_exception, C189_nth). When a worker fails, `DONE` is never put and the daemon thread waits until the manager is shut down; the model ends in the state `failed` there. |
| C190 | Conversion of the data to single precision | proved | Float32 | IEEE rounding to nearest even in binary32, proved for every binary format; instantiates the rounding that the theorems on the data handler (C50-C52) have as a parameter. |
| C191 | Expressions and constraints together | proved | PullMatrices | C191_handed, C191_override, C191_constraints_only, C191_raises, C191_zero and C191_aux. scipy's lsq_linear is a parameter: it raises unless the lower bound is below the upper one and respects the bounds. Disagreements: _Qaux_loss is given the target plus the pull and subtracts the pull again, so the scaling of the expression pull never sees how far it goes from the base model (C191_aux); expressions whose elements are also set to zero stop the training with an exception at the second iteration (C191_zero). |
| C192 | Table and estimate of a factor estimation run | proved | EstimatorTable | C192_schedule, C192_raises, C192_table, C192_telescopes, C192_scale, C192_estimate, C192_percent, C192_rounding and C192_lines. Disagreements: the share of test values has no effect on the test errors or the estimate (C192_percent); the rounding of the errors to five digits makes the estimate depend on the units of the data, down to -1 for every data set with small numbers (C192_rounding). A division by zero in Delta Ratio is reported as not finite. |
| C193 | From the loaded tables to the trained model | proved | Pipeline | C193_model, C193_trains_iff, C193_training and C193_zero join the theorems about the data handler, the constructor, initialize and LS-NMF; float32_ok shows that the IEEE conversion meets the assumptions on the conversion. Disagreement: tables with a feature or a row of zeros are loaded and validated although no training of two updates is defined on them (C193_zero). |
| C194 | What the views of a batch show | proved | BatchViews | Failed models are `none`. **Disagreements:** the hover texts of plot_loss_distribution count from zero, plot_loss and details from one; with all losses NaN the best position is -2 and details reports the last but one model as number -1; Steps is one less than the number of updates; the commands make a missing directory and then raise. Figures are the data handed to plotly. |
| C195 | What the configuration commands leave behind | proved | Setup | **Disagreements:** the configurations are module objects that the commands change in place, so setup after simulator setup in one process writes the synthetic data paths; a directory name with a single % is refused after the directory was made; the paths of the synthetic data are relative to the current directory although the simulator writes them into the project directory, and index_col = 0 is read as a name. Writing and reading a file with configparser is taken as the identity; which values it accepts is a parameter. |
| C196 | The figures of a bootstrap do not depend on the order, except for the base markers | proved | BsViews | **Disagreement:** plot_factor and plot_contribution show other base markers after summary or show_factor_results than before, because these zero small entries of the base model in place (C135); a feature that is small in all profiles loses its markers (0/0). The table of Q values is left out; the numbers in the factor tables are C171 and C172. |
| C197 | Names of constraints and the lists of constraints and expressions | proved | ConstraintLists | Texts are lists of characters; integers are written in decimal. Justifies the representation of labels by numbers in Model/Constrained. Disagreement: remove_constraint raises for an unknown label, remove_expression ignores an unknown number. |
| C198 | Three-dimensional bars of factors and features | proved | Mesh3d | **Disagreement:** a summed concentration of zero is shown as 1e-10 after the logarithm, so a bar of height zero never occurs, and for zero the height is not the logarithm of the sum plus one. |
| C199 | Fingerprints of the comparison with PMF | proved | Fingerprints | Names are lists of characters; the R² values in the titles are parameters. |
| C200 | A simulator object over several calls | proved | SimState | **Disagreement:** the documentation of update_contribution says that input and uncertainty data are recalculated with each update, but only get_data does so (C200_stale, C200_update). **Disagreement:** syn_sa.Qrobust is the pair returned by qr_loss and not a number (C200_fresh). The caller's array of custom profiles is changed (C200_custom). Not modelled: sharing of memory between frames and arrays, results that are not finite. |
| C201 | Base estimate of a comparison and figure of a perturbed factor | proved | BaseEstimate | **Disagreement:** the number in the title is the index counted from zero, unlike the labels of the other figures, and negative indices are not rejected. **Disagreement:** eval/profile_compare_test.py:101 calls to_numpy on base_V_estimate, which is an array and has no such method, so that script raises after the comparison (not modelled). |
| C202 | Runtime evaluations | proved | Runtime | Model/Runtime.lean. Times and losses are arbitrary values; the training itself, reading the data and drawing are not modelled here. Disagreement: the clean up tests for the results file it has just removed instead of the figure, so an old figure is never removed; the benchmark runs a repeated size again but shows only its first times. |
| C203 | Robust loss on the GPU | proved | GpuRobust | Model/Gpu.lean (shapes), Model/Metrics.lean (values over the reals; square roots exact). Candle's element-wise operations are taken to need equal shapes, as for C75. Disagreement: the report of the last iteration always fails, so GPU training returns False even without the defects of C75; C203_loop shows that the loop itself could succeed. |
| C204 | Displacement as a whole, also repeated | proved | DispRun | Model/DispRun.lean on top of Model/Displacement.lean. The loss and the retraining are arbitrary functions. Exceptions in the tasks are the subject of C267. Disagreement: the tables are never reset and their columns follow the order in which the factors came in the first run, so a sequential run after a parallel one still books swaps under the wrong factor. |
| C205 | What robust_alpha can change | proved | RobustAlpha | Disagreement between the two implementations for a negative robust_alpha: the Python loop ends after one iteration because Q(robust) is NaN, the compiled loop does not look at it. The value for alpha = 0 (an infinite robust uncertainty) is modelled by the quotient it leads to. |
| C206 | Training does not depend on the order of samples, features and factors | proved | Order | Exact arithmetic: in floating point the sums are taken in another order and the runs differ by rounding. For ws-nmf the hypothesis on the inverse is met by the true inverse (example in the file); the SVD pseudo-inverse of the compiled code is not modelled at value level. |
| C207 | What the catalog compares | proved | FactorCatalog | Disagreement: emc is described as a comparison of effective mass contributions, but the mean contribution is a common factor which the correlation does not see. |
| C208 | The equations given to the solver by expressions | proved | ExprSystem | The solver itself is not modelled; the matrix and vector given to it are. Disagreement: the right hand side of the expression as written is not used, and the vector holds the sum of the current values without the coefficients. |
| C209 | The block length follows the rule of Politis and White | proved | BlockRule | Exact real arithmetic, NaN for a constant window. Disagreement: the comment in the code says that the largest significant lag is used; its position in the array is used, which is one less (C209_no_run). |
| C210 | The start factors written out | proved | StartValues | Draws and the clustering are arguments of the model; exact real arithmetic. Disagreement with the documentation of H: given profiles are not kept, every feature is rescaled by its own factor (C210_prior), and the contributions of the start 'update' can be negative with ls-nmf because the profiles are not yet replaced (C210_update, C19_update_refuted). |
| C211 | The generated data written out | proved | StartValues | The draws are arguments of the model; exact arithmetic. |
| C212 | What the concentration/uncertainty figure shows | proved | InputFigures | **Disagreement**: the index of `plot-feature` is ignored. |
| C213 | What the feature/feature figure shows | proved | InputFigures | **Disagreement**: the message names a bound that is rejected; points with a negative value lie outside the axes. |
| C214 | What the time series figure shows | proved | InputFigures | **Disagreement**: the number is taken modulo the rows; always daily means; the command `plot-timeseries` always raises. |
| C215 | Correlation heat map and histogram colours | proved | InputFigures2 | The value of the other methods of `corr` is not modelled. |
| C216 | What the ridge line figure shows | proved | InputFigures2, RidgeDensity | **Disagreement**: with the logarithmic axis one feature without two different positive values prevents the figure. |
| C217 | The time axis of the figures of a solution | proved | TimeAxis | **Disagreement**: data whose smallest step is not one hour make the figures raise; the title (avg=1) of the percent curves. |
| C218 | The table of feature metrics | proved | AnalysisTables | The tables need at least one row (hypothesis of C218_rows); for none numpy gives NaN. **Disagreement**: the last column, see C73. |
| C219 | Labels and standard error of the residual statistics | proved | AnalysisTables | The statistics and p-values of the three tests are arguments. **Disagreement**: a level is shown for residuals rejected at 5 %; the standard error uses the population deviation. |
| C220 | Panels of all factors | proved | AnalysisTables | **Disagreement**: no legend without the first factor. |
| C221 | Heights and labels of the surface plot | proved | AnalysisTables | Zeros are taken as positive zeros. **Disagreement**: fractions under the title Percentage (%). |
| C222 | Best match of each base factor | proved | BestMatch | The metrics themselves are in FactorCompare (C66, C67). **Disagreement**: the two maps of the class point in opposite directions. |
| C223 | What ConstrainedModel.train stores | proved | ConstrainedTrain | Model/ConstrainedTrain. C223_stored, C223_stop, C223_losses; C223_no_iterations records a Disagreement (max_iterations = 0 stores a model and then raises), as does the example beside it (losses recorded before entries <= 0 are replaced). Exceptions in an iteration are those of the pull matrices and the update; an exception in the progress bar, in the construction of SA (whose input the base model passed already) and division by a zero base Q(robust) in the log message are not modelled. |
| C224 | Accuracy of the ws-nmf update of the profiles | proved | IeeeWs | Model/Ieee (WsColumn, WsProd). C224_sqrt, C224_format (square roots), C224_binary64, C224_accuracy (one column), C224_exact (the exact side is wsStepH). The update of W by a matrix inverse is not covered in floating point. |
| C225 | Accuracy of the loss in floating point arithmetic | proved | IeeeLoss |  |
| C226 | Accuracy of the robust loss in floating point arithmetic | proved | IeeeRobust |  |
| C227 | The figures of DISP and BS-DISP | proved | DispFigures | Positive profiles hold for every displacement object (EPSILON is added). Combines C80_stored, C204_rows and the merge of BS-DISP; the columns dQ_drop and swap are covered elsewhere. Titles, colours and hover texts of the figures are not modelled. |
| C228 | The loss of ls-nmf in floating point | proved | IeeeDescent | C228_step, C228_next, C228_run, C228_weights, C228_recorded, C228_binary32. `StepRange` collects the range conditions of C145. The examples meet the hypotheses with a 2x2 problem, with and without held profiles, and with the two updates of C146 during which the recorded loss increases. The bound is not sharp: the loss of the zero model enters because a relative error of the product is an absolute error of the residual. |
| C229 | Weights in single precision | proved | IeeeWeights | C229_weight, C229_zero_iff, C229_accurate, C229_large, C229_product, C229_ignored. **Disagreement**: an entry with an uncertainty of 2^64 or more has weight exactly zero in the update while the recorded loss still divides by the uncertainty; with NumPy's overflow warning switched off this is silent. |
| C230 | Conversion of the data and the loss | proved | SinglePrecision | C230_upper, C230_lower, C230_optimal. Exact arithmetic after the conversion; the rounding of the loss itself is C225. Uncertainties below EPSILON are excluded because they are replaced (C18, C229). |
| C231 | Callbacks of a batch and process pools | proved | BatchCallback | C231_same, C231_unpicklable, C231_modes. **Disagreement**: the tasks are handed progress_callback although they use it only when there is no queue, which is when there is no callback; leaving it out would make every callable work in both modes. That Pool reports an argument it cannot pickle as a failure of the task is an assumption about the library. |
| C232 | Rows and columns of the figures of a solution | proved | PlotAlignment | **Disagreement**: the temporal residuals of a feature after a removed column are computed from another column; weak features are scaled by different uncertainties in the statistics and in the histogram. |
| C233 | The comparison of perturbed models completes | proved | PerturbCompare | **Disagreement**: the bipartite matching is meant to resolve conflicts, but its result makes the comparison raise (values of different shapes cannot be stacked). For the relative error, the default. |
| C234 | Constrained results are out of reach of the command line | proved | CliSession | Disagreement: ConstrainedModel.save(pickle_model=True) pickles the inner SA solution, so the seven commands of analysis-constrained and run-error with constrained_config always raise. Of pickled objects only the class is kept; os.mkdir inside an existing directory is taken to succeed; a text file is assumed not to be a pickled constrained model. |
| C235 | Report of the memory estimate | proved | MemReport | Exact characterisation of the returned dictionary. Disagreement: for every model of up to 2^30 bytes the text for the available memory is 1024 times too large (a megabyte number with the unit GB), and the entry `available_memory_bytes` is in gigabytes. The cases for kilobytes and bytes cannot be reached, as the estimate includes 150 MiB. Numbers exact (float formatting not modelled). |
| C236 | Highlighted elements of the constrained profile | proved | Highlights | Disagreement: the comments promise that elements in expressions and constrained elements are highlighted, but the computed colours are not passed to any trace, and the test for constrained elements compares the constraint type with the text `feature`, which is a target and not a type. |
| C237 | The example program as a whole | proved | Workflow | Put together from the models of the parts; the numbers of the models are reals (the arrays are single precision, as in the code), the random draws are inputs. The relative noise is normal with scale 0.02, so draws beyond one half are possible in principle and excluded by hypothesis. Disagreement: more than 127 models fail because the compiled function takes the model number as a signed byte. |
| C238 | Training with fixed profiles finds the best contributions | proved | HoldOptimal | Exact arithmetic. The rate comes from a logarithmic potential: one update of the contributions satisfies Q(W') - Q(X) ≤ 2 Σ X b (log W' - log W) + \|WH\|² - \|W'H\|² for every non-negative X, which telescopes. For ws-nmf the matrix inverse is a parameter assumed to be a left inverse for the optimality part only. |
| C239 | What convergence of an ls-nmf run guarantees | proved | Converged | C239_moved and C239_pull are the decrease of one update (profiles held or not), C239_total sums them over a run, C239_converged is the guarantee of a run reported as converged (compiled loop, exact arithmetic). Movement and optimality violations are written out in amountMoved, profilePull, contributionPull without reference to the update. |
| C240 | Samples, features and factors without any signal | proved | IeeeZero | C240_exact is the exact characterisation in exact arithmetic; C240_sample, C240_feature, C240_contributions, C240_profile are the outcomes in floating point for every evaluation order, rounding and fused multiply-add. Neither the constructor nor the validation of SA rejects such data. |
| C241 | Which value a pull to a value returns | proved | PullSearch | C241_search characterises the returned value by the first bisection point that ends the search, C241_precision bounds its distance from the limit, C241_usual is the closed form for limits up to one hundred (the constant of the code), where the search stops at the first admissible power of two. Complements C47 and C83. |
| C242 | By which factor a pull down or pull up changes an element | proved | PullFactor | Model/Constrained (pullDownLoop, pullUpBound, pullUpLoop). C242_down, C242_up: closed forms for limits up to 100; C242_down_monotone: halved or multiplied by 0.2888; C242_requested: range of the requested decrease in _apply_constraints. Disagreement: a limit that does not allow halving leads to a larger pull, and a limit that does not allow doubling to no pull up. |
| C243 | Starting factors that are multiples of each other | proved | Copies | C243_run (whole compiled run, exact arithmetic), C243_proportional. Extends C05 and C167 (scaled and reordered factors) to copies. |
| C244 | Repeated samples are samples with smaller uncertainty | proved | Copies, CopiesPy | C244_ls, C244_ws, C244_bootstrap (compiled loop), C251_sample_copies and C244_ws_python (Python loop), exact arithmetic. The bootstrap starts ls-nmf with new random contributions (bs_i_sa.initialize(H=_H)) instead of the resampled ones, so for ls-nmf copies of a sample generally do not start equal there; _resample returns the resampled contributions for nothing. |
| C245 | The allowed change of Q holds for one iteration | proved | PullTotal | C245_bound (with C02), C245_exceeds (witness computed in the kernel with the model of the whole iteration). Disagreement: the searches measure the change of Q from the factors of the iteration, not from the base solution (expressions are compared with the base, C46). |
| C246 | An ls-nmf update is at least as good as any rescaling of the factors it starts from, and so never worse than the empty model | proved | Rescaling | C246_features and C246_samples: identity and comparison with all multiples for the two steps; C246_empty_model: one update is at least as good as predicting zero, per sample and in total; C246_unchanged: decomposition of the sum of squares at unchanged factors; C246_run: all losses a training records. Exact arithmetic; in floating point the statements hold up to rounding only. |
| C247 | Constraints without effect: contributions under ws-nmf, profiles of a single factor under ls-nmf | proved | Ineffective | C247_ws_iteration, C247_ws_training: contributions under ws-nmf; C247_one_factor_update, C247_one_factor_iteration: one factor under ls-nmf. **Disagreement** with the documentation of the constraints, which does not mention either case. Q(aux) and with it the number of iterations still depend on the constraints. |
| C248 | On what the result of a training depends | proved | Dependence, WsRunsPy | C248_ws_start; C248_one_factor_start; C248_samples (ls-nmf) and C248_ws_samples. The statement on samples is about the updates, not about the stopping rule, which looks at the loss of all samples together. C248_python_ws is about the Python loop. |
| C249 | Model numbers in the error estimates | proved | ModelNumbers | **Disagreement** with the purpose of the code: DISP and BS-DISP with the default settings raise an OverflowError for every data set with factors times features above 127, for example six factors and the 41 features of the Baton Rouge data in the repository. C79 is about the list of tasks; here it is whole runs, the state they leave behind, any list of requested features, the sequential mode, BS-DISP and the Python fallback. Resampling, the searches and training are those of C204 and C182; the conversion of the arguments by PyO3 is trusted. |
| C250 | The pseudo-inverse of the compiled code | proved | RustPseudo | **Disagreement** with the comment in the code (pseudo-inverse using SVD decomposition). Shapes of tensors only; checks of the element types are left out, so the errors do not depend on them. candle's checks of rank and shape are trusted as described in Verif/Model/RustPseudo. |
| C251 | Whole runs of the Python loop | proved | PythonRuns | Exact arithmetic; lsTrainPy is the Python loop on a fresh model with a robust loss that is always a number (robust_alpha as in C205). C251_factor_copies, C251_proportional, C251_sample_copies and C251_one_factor hold for every converge_n, including those with which the loop raises. C251_one_factor needs at least one iteration and profiles that are not held. |
| C252 | The course of a ws-nmf run | proved | WsRuns, WsRunsPy | The contribution step loses exactly the squared change of the model (normal equations), the profile step at least the squared change of what every factor explains: with the ratio r under the root, the bound of the step falls by (r-1)^2 times a positive number. Assumes exact arithmetic and inverses that are inverses; with negative recomputed contributions the statements are false (C77_refuted). C252_python, C252_python_moved, C252_python_converges and C252_python_ls are about the Python loop. |
| C253 | What the profile step of ws-nmf minimises | proved | WsObjective | The auxiliary function argument of semi-NMF, applied to the products of parts the code forms. **Disagreement**: the code uses the products of the positive and of the negative parts of W, not the positive and negative parts of the products W^T W, so what it descends is not the loss. |
| C254 | The table of the factor catalog | proved | CatalogTable | Exact arithmetic; the order of equal rows is left open (quicksort). Disagreement: with only model number 0 in the catalog the reports raise ZeroDivisionError (the model count stays zero, see C69); with more than 10000 models the descending percentages need not be descending counts. |
| C255 | ls-nmf in the long run satisfies the equations of a best solution | proved | LongRun | C255_update (one update, any ordered field), C255_limit (the limit statements, over the reals), C255_run (returned factors of long compiled and Python runs), C255_delayed (with delay_h), C255_not_best (a start that is returned unchanged although it is not best). Only the complementarity part of the optimality conditions is proved: at a limit point an entry of zero may have a negative derivative. Exact arithmetic; the example shows that runs of every length occur (converge_delta = 0). |
| C256 | ws-nmf in the long run with non-negative contributions | proved | WsLongRun, WsRunsPy | C256_update (one update), C256_limit (the limit statements), C256_run (returned factors). Exact real arithmetic; the inverse routine and the sign of the contributions are hypotheses (WsProper), met by every run with one factor (example). C256_python is about the Python loop. |
| C257 | Small changes of the data change the result of a training little, unless the stopping test is met exactly | proved | Continuity, ContinuityPy | C257_updates, C257_run (compiled loop, over the reals, along any filter), C257_fixed_number (a negative converge_delta meets the condition), C257_python and C257_python_fixed (the Python loop), C257_jump (the condition is needed). Exact arithmetic. |
| C258 | Whole ls-nmf runs in floating point | proved | IeeeRuns | C258_run, C258_precision (against the course of the exact model); computed_runs_exist shows that the runs spoken of exist in every arithmetic. The bound grows by a factor of 14 per update, so in single precision it is informative for a few updates only; the loss of long runs is bounded in C228. The weights are taken as exactly given (their own roundings: C229). |
| C259 | Features that are multiples of each other | proved | CopiesPy, FeatureCopies | C259_ls is about the whole compiled loop, C259_python about the Python loop; the copies need not be exact, only proportional in values and in uncertainties. The ws-nmf counterexample has one sample, one factor and three features. |
| C260 | With fixed profiles the contributions converge | proved | HoldLimit, WsRunsPy | C238 has the limits of the loss and of the modelled values and a rate with an unspecified constant; here the contributions themselves converge and the constant is given. C260_start: two factors with the same profile, where two different starts are limits of themselves. C260_python is about the Python loop. |
| C261 | One factor with uncertainties of product form reaches the best model | proved | OneFactorBest | C155 has that each half update is an exact least squares fit; C261 has the global minimum and a rate. C261_product_needed: V = identity, uncertainty 1 on the diagonal and 1/2 off it. |
| C262 | Project directories with percent signs or blanks | proved | ConfigText | **Disagreement**: the directory is stored without doubling its percent signs (esat_cli.py:161,195,201). The rules are those of BasicInterpolation in the Python library; values with line breaks are not modelled. C262_setup joins them to the model of the commands, in which which values are accepted is a parameter. |
| C263 | Very large uncertainties take cells, samples and features out of the training | proved | DownWeight, LimitsPy | Exact arithmetic; the limit. In single precision weights are zero from 2^64 on (C229), and a sample or feature all of whose weights are zero becomes NaN (C240): weakening a whole sample works up to there only. C263_python: the Python loop. |
| C264 | Small changes of the data under ws-nmf | proved | ContinuityWs, LimitsPy | C264_updates and C264_run (compiled loop, along any filter), C264_one_factor and C264_held (when the condition holds), C264_needed (contributions diverge at dependent profiles). Exact arithmetic; the EPSILON of the profile update keeps its denominators positive. C264_python: the Python loop. |
| C265 | Very large uncertainties under ws-nmf | proved | DownWeightWs, LimitsPy | C265_run is the general statement; C265_parts multiplies whole samples and features by c and compares with the training of the code on the data without them; C265_one_factor discharges the condition on the profiles for one factor. keptTrainWs_all shows that the kept training is the one of the code when all cells are kept. The example has a feature that keeps its starting profile 7. Exact real arithmetic; C265_run is the compiled loop, C265_python the Python loop. |
| C266 | Samples that are multiples of each other, and samples without signal under ws-nmf | proved | CopiesPy, SampleMultiples | C266_ls, C266_ws and C266_empty for the compiled loop, C266_ls_python, C266_ws_python and C266_empty_python for the Python loop. Exact real arithmetic. C266_empty needs no condition on the inverse. That ls-nmf produces NaN for a sample of zeros is C240. |
| C267 | A displacement that ends with an exception, and the runs after it | proved | DispFault | Model/DispFault, on top of Model/DispRun. C267_clean, C267_parallel, C267_sequential, C267_rows, C267_tables. Which column of the swap table a factor has depends on the order in which the results were first stored (C204), so only the sum over the columns is stated. An exception outside of the tasks and the death of a worker process are not modelled. |
