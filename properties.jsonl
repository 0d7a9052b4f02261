{"id": "C01", "title": "LS-NMF update keeps factors non-negative", "statement": "If the data V, the weights We and the starting profile/contribution matrices H, W are entry-wise non-negative, every call to the LS-NMF update returns entry-wise non-negative W and H; if V, We, W, H are strictly positive the returned matrices are strictly positive, so no later update ever divides by zero. The same holds after any number of updates.", "quantifier": "every matrix size m x n and factor count k, every non-negative (resp. positive) V, We, W, H, both values of hold_h, every number of iterations", "why_tests_cant": "A test samples a few matrices and iteration counts; the claim is an inductive invariant over all of them.", "anchors": ["esat/model/ls_nmf.py:LSNMF.update", "rust/lib.rs:ls_nmf_update_cpu"]}
{"id": "C02", "title": "LS-NMF never increases the loss", "statement": "One LS-NMF update never increases the weighted loss Q(W,H) = sum We*(V-WH)^2, whether or not H is held fixed; hence the sequence of Q values recorded during training is non-increasing from the first entry to the last.", "quantifier": "all sizes, all non-negative V and We, all non-negative W, H with positive update denominators, hold_h in {True, False}, every iteration count", "why_tests_cant": "Monotone descent for all data is an analytic statement (auxiliary-function argument); finitely many runs cannot rule out an increase.", "anchors": ["esat/model/ls_nmf.py:LSNMF.update", "rust/lib.rs:ls_nmf_update_cpu"]}
{"id": "C03", "title": "LS-NMF zeros are permanent", "statement": "An entry of W or H that is exactly zero stays exactly zero through any number of LS-NMF updates, and (for strictly positive V, We and no all-zero factor) a strictly positive entry stays strictly positive: the support of the factorisation never grows.", "quantifier": "all sizes, matrices, iteration counts", "why_tests_cant": "Quantifies over all histories of updates.", "anchors": ["esat/model/ls_nmf.py:LSNMF.update", "rust/lib.rs:ls_nmf_update_cpu"]}
{"id": "C04", "title": "hold_h / delay_h honoured", "statement": "With hold_h=True and delay_h<=0 training returns the initial H unchanged, whatever the data and number of iterations. With hold_h=True and delay_h=d>0, H is unchanged through iteration index d and the state from then on evolves exactly as with hold_h=False. With hold_h=False delay_h has no effect.", "quantifier": "all inputs, all max_iter, all converge settings, all delay_h, for the ls-nmf and ws-nmf training loops", "why_tests_cant": "Depends on every possible iteration count and stopping point.", "anchors": ["rust/lib.rs:ls_nmf_update_cpu", "rust/lib.rs:ws_nmf_update_cpu", "esat/model/sa.py:SA.train"]}
{"id": "C05", "title": "LS-NMF does not depend on factor, sample or feature order", "statement": "Relabelling factors, samples or features of the input (V, We, W, H permuted consistently) relabels the LS-NMF result and changes nothing else; rescaling factor i of W by c_i>0 and of H by 1/c_i rescales the updated factors the same way; and the loss of the two runs is identical at every iteration.", "quantifier": "all permutations, positive scalings, sizes, iteration counts", "why_tests_cant": "A universally quantified equivariance.", "anchors": ["esat/model/ls_nmf.py:LSNMF.update", "rust/lib.rs:ls_nmf_update_cpu"]}
{"id": "C06", "title": "An exact factorisation is a fixed point", "statement": "If V = W H with positive update denominators, the LS-NMF update returns W and H unchanged and Q = 0; conversely if an update step with strictly positive W, H leaves both matrices unchanged then the gradient of Q in W and H vanishes.", "quantifier": "all sizes and matrices", "why_tests_cant": "Universal statement over real matrices.", "anchors": ["esat/model/ls_nmf.py:LSNMF.update", "rust/lib.rs:ls_nmf_update_cpu"]}
{"id": "C07", "title": "WS-NMF contribution step is the exact weighted least-squares solution", "statement": "For given H, each row of the W returned by a WS-NMF update minimises the weighted residual of that sample over all real rows, whenever the k x k normal matrix of that row is invertible; the previous W has no influence.", "quantifier": "all V, We>=0, H, all competitor rows, all sizes", "why_tests_cant": "Optimality against every competitor cannot be enumerated.", "anchors": ["esat/model/ws_nmf.py:WSNMF.update", "rust/lib.rs:ws_nmf_update_cpu"]}
{"id": "C08", "title": "WS-NMF keeps profiles non-negative", "statement": "Starting from a positive H, the H returned by a WS-NMF update is entry-wise positive (and a real number) for every dataset the class documentation advertises, including data with negative values.", "quantifier": "all V (possibly with negative entries), We>=0, all sizes", "why_tests_cant": "A sign condition over all data.", "anchors": ["esat/model/ws_nmf.py:WSNMF.update", "rust/lib.rs:ws_nmf_update_cpu"]}
{"id": "C09", "title": "Q(true) is a faithful goodness of fit", "statement": "q_loss(V,U,W,H) is the sum over cells of ((V-WH)/U)^2; it is non-negative, is zero exactly when V = WH (U nonzero), does not depend on the sign of U, and scaling data, uncertainty and contributions by a common factor c != 0 (unit change) leaves it unchanged.", "quantifier": "all sizes and matrices with nonzero U, all c", "why_tests_cant": "Universal identities.", "anchors": ["esat/metrics.py:q_loss", "esat/metrics.py:calculate_Q", "rust/lib.rs:calculate_q_cpu"]}
{"id": "C10", "title": "Q(robust) is the Huber-type loss and is bounded by Q(true)", "statement": "qr_loss with threshold alpha>0 equals the sum over cells of s^2 when s<=alpha and alpha*s otherwise, s being the absolute scaled residual; hence Q(robust)<=Q(true), with equality iff no scaled residual exceeds alpha, it is monotone in alpha, and the returned uncertainty is inflated exactly at the outlying cells so that re-evaluating Q(true) with it gives Q(robust).", "quantifier": "all matrices with positive U, all alpha>0", "why_tests_cant": "Universal inequality plus iff.", "anchors": ["esat/metrics.py:qr_loss", "rust/lib.rs:calculate_q_robust_cpu"]}
{"id": "C11", "title": "Per-factor Q contributions add up", "statement": "Before rounding, the per-factor loss contributions of q_factor sum to Q(true) for every model whose reconstruction is positive everywhere, and each contribution is non-negative for non-negative factors.", "quantifier": "all sizes, all positive reconstructions", "why_tests_cant": "Universal identity.", "anchors": ["esat/metrics.py:q_factor"]}
{"id": "C12", "title": "Training stops exactly when the documented criterion is met", "statement": "The compiled training loop runs at most max_iter updates; it reports converged=True iff at some iteration the loss had changed by less than converge_delta over the last converge_n recorded values, it stops at the first such iteration, otherwise it performs exactly max_iter updates and reports converged=False; the recorded loss list has one entry per update performed and its last entry is the loss of the returned factors.", "quantifier": "every update function, loss function, initial factors, max_iter>=1, converge_n, converge_delta", "why_tests_cant": "Ranges over every trajectory of losses and every stopping point.", "anchors": ["rust/lib.rs:ls_nmf_update_cpu", "rust/lib.rs:ws_nmf_update_cpu", "esat/model/sa.py:SA.train"]}
{"id": "C13", "title": "Compiled and Python training agree", "statement": "Training with the compiled loop and with the Python loop (optimized=False) on the same inputs stops at the same iteration with the same factors, converged flag and loss history.", "quantifier": "every trajectory of losses and all stopping parameters", "why_tests_cant": "Requires comparing two loops on all trajectories, including the first admissible stopping point.", "anchors": ["esat/model/sa.py:SA.train", "rust/lib.rs:ls_nmf_update_cpu"]}
{"id": "C14", "title": "Progress reports are complete and ordered", "statement": "During compiled training the progress callback is invoked with strictly increasing iteration numbers, the final invocation is flagged completed, no earlier one is, and one is always issued at the iteration where training stops.", "quantifier": "every trajectory, all parameters", "why_tests_cant": "Every stopping point and reporting interval.", "anchors": ["rust/lib.rs:ls_nmf_update_cpu", "rust/lib.rs:ws_nmf_update_cpu"]}
{"id": "C15", "title": "A NaN loss does not masquerade as convergence", "statement": "If the loss becomes NaN and stays NaN, training never reports converged=True afterwards.", "quantifier": "every trajectory with a NaN tail, all parameters", "why_tests_cant": "Every point at which the NaN may appear.", "anchors": ["rust/lib.rs:ls_nmf_update_cpu", "esat/model/sa.py:SA.train"]}
{"id": "C16", "title": "Reported results are mutually consistent", "statement": "After a successful train() the stored reconstruction equals W times H, Q(true) equals q_loss of the stored factors with the stored V and U, Q(robust) equals qr_loss of them and Q(robust)<=Q(true).", "quantifier": "all inputs and parameters", "why_tests_cant": "All runs.", "anchors": ["esat/model/sa.py:SA.train"]}
{"id": "C17", "title": "Memory layout of the arrays does not matter", "statement": "Training gives the same factors whatever the memory order (row-major or column-major) of the V, U, W, H arrays passed in, and calling train() again continues from the returned factors.", "quantifier": "all shapes, contents and memory orders of each argument, repeated calls", "why_tests_cant": "Any single test fixes one layout.", "anchors": ["rust/lib.rs:ls_nmf", "rust/lib.rs:na_to_ndarray", "rust/lib.rs:ndarray_to_na", "esat/model/sa.py:SA.train"]}
{"id": "C18", "title": "Uncertainties are always usable weights", "statement": "For any uncertainty matrix passed to SA, the uncertainties used by the model are at least 1e-12 and the weights We = 1/U^2 are finite and positive; entries that were already at least 1e-12 are unchanged.", "quantifier": "all real uncertainty matrices (zeros and negatives included)", "why_tests_cant": "All inputs.", "anchors": ["esat/model/sa.py:SA.__init__"]}
{"id": "C19", "title": "initialize() yields a valid starting point", "statement": "After initialize() with any user-supplied H/W/number of prior factors accepted by the method, H has shape k x n with strictly positive entries, for ls-nmf W has shape m x k with strictly positive entries, and the model is validated; user-supplied full-shape positive H and W are used as given.", "quantifier": "all inputs, initialisation methods and random draws", "why_tests_cant": "All draws and shapes.", "anchors": ["esat/model/sa.py:SA.initialize", "esat/model/sa.py:SA.__validate"]}
{"id": "C20", "title": "initialize() does not modify the caller's arrays", "statement": "Arrays passed as H or W to initialize() have the same contents afterwards.", "quantifier": "all arrays", "why_tests_cant": "All contents, aliasing.", "anchors": ["esat/model/sa.py:SA.initialize"]}
{"id": "C21", "title": "train() return value tells the truth", "statement": "train() returns -1 exactly when the model is not in a validated state and then changes nothing; a validated model with working compiled code ends with W, H, Q(true), Q(robust), WH, converge_steps set.", "quantifier": "all call sequences of construct / initialize / train", "why_tests_cant": "All histories.", "anchors": ["esat/model/sa.py:SA.train", "esat/model/sa.py:SA.initialize"]}
{"id": "C22", "title": "Algorithm choice respects negative data", "statement": "A dataset with any negative value is never processed with LS-NMF, and a non-negative dataset with method ls-nmf is always processed with LS-NMF, in both the compiled and the Python path.", "quantifier": "all datasets, all method strings, optimized flags", "why_tests_cant": "All inputs.", "anchors": ["esat/model/sa.py:SA.__init__"]}
{"id": "C23", "title": "save()/load() respect the path contract", "statement": "save and load never touch the file system unless the path is absolute and exists, return None in all other cases, and load(save(x)) returns x for the pickle form.", "quantifier": "all paths, file-system states and models", "why_tests_cant": "All file-system states.", "anchors": ["esat/model/sa.py:SA.save", "esat/model/sa.py:SA.load", "esat/model/batch_sa.py:BatchSA.save", "esat/model/batch_sa.py:BatchSA.load"]}
{"id": "C24", "title": "best_model is the model with the lowest loss", "statement": "After a successful batch run results[best_model] has the minimal Q(robust) of all results, and among ties the lowest index is chosen.", "quantifier": "every number of models and every list of losses", "why_tests_cant": "All loss lists.", "anchors": ["esat/model/batch_sa.py:BatchSA.train"]}
{"id": "C25", "title": "Batch results do not depend on scheduling", "statement": "Results of a parallel batch run are stored at their own model index, independent of the order in which worker processes finish, and equal those of the sequential run with the same seed and options.", "quantifier": "all completion orders, all options", "why_tests_cant": "Schedules.", "anchors": ["esat/model/batch_sa.py:BatchSA.train"]}
{"id": "C26", "title": "Model seeds are reproducible and extendable", "statement": "The seed used for model i depends only on the batch seed and i; running with more models keeps the earlier models' seeds.", "quantifier": "all seeds and model counts", "why_tests_cant": "All counts.", "anchors": ["esat/model/batch_sa.py:BatchSA.train"]}
{"id": "C27", "title": "Any number of models can be run", "statement": "A batch run succeeds for any positive number of models; model numbers carry no hidden limit.", "quantifier": "all model counts", "why_tests_cant": "Unbounded count.", "anchors": ["esat/model/batch_sa.py:BatchSA.train", "rust/lib.rs:ls_nmf", "esat/model/sa.py:SA.train"]}
{"id": "C28", "title": "A failed batch run is reported", "statement": "BatchSA.train returns (False, message) whenever a model fails, and (True, '') only when every model has been trained.", "quantifier": "all outcomes of the individual models", "why_tests_cant": "All combinations of outcomes.", "anchors": ["esat/model/batch_sa.py:BatchSA.train"]}
{"id": "C29", "title": "Block bootstrap preserves shape and pairing", "statement": "Every block resample has exactly as many rows as the original, each row is a row of the original, and data, uncertainty and contribution rows are drawn with the same indices; inside a block rows are consecutive.", "quantifier": "all N, block sizes, random draws, overlapping or not", "why_tests_cant": "All draws and sizes (partial blocks).", "anchors": ["esat/error/bootstrap.py:Bootstrap._block_resample"]}
{"id": "C30", "title": "Every sample can be drawn by the bootstrap", "statement": "For every row of the dataset some sequence of random draws puts that row in the resampled dataset.", "quantifier": "all N, block sizes, all rows", "why_tests_cant": "Existence over all draws; tests with fixed seeds cannot show impossibility.", "anchors": ["esat/error/bootstrap.py:Bootstrap._block_resample"]}
{"id": "C31", "title": "Bootstrap factor mapping picks the best correlated base factor", "statement": "A bootstrap factor is mapped to a base factor whose r^2 is maximal among all base factors, and only if that r^2 reaches the threshold; otherwise it is labelled unmapped.", "quantifier": "all correlation tables, thresholds, factor counts", "why_tests_cant": "All correlation tables.", "anchors": ["esat/error/bootstrap.py:Bootstrap.map_factors", "esat/error/bootstrap.py:Bootstrap.map_contributions"]}
{"id": "C32", "title": "Bootstrap mapping table conserves runs", "statement": "In the mapping table each bootstrap-factor row (mapped counts plus unmapped) sums to the number of bootstrap runs, so the table total is runs x factors.", "quantifier": "all mappings, run counts, factor counts", "why_tests_cant": "All mapping outcomes.", "anchors": ["esat/error/bootstrap.py:Bootstrap._build_table"]}
{"id": "C33", "title": "Displacement increase search brackets its target", "statement": "When the upward search reports a value for a dQ level, the displaced value is at least the base value and at most the bracket found, and if the search stopped because the target was met then the change in Q at that value lies in [target - threshold, target].", "quantifier": "all loss responses (continuous or not), base values, thresholds", "why_tests_cant": "All loss functions.", "anchors": ["esat/error/displacement.py:Displacement._increase_disp", "esat/error/displacement.py:Displacement._increase_disp_p"]}
{"id": "C34", "title": "Displacement decrease search stays between zero and base", "statement": "The downward search reports a value between 0 and the base value, terminates after at most the documented number of evaluations, and meets the dQ window unless it stopped on its step limit.", "quantifier": "all loss responses, base values, thresholds", "why_tests_cant": "All loss functions.", "anchors": ["esat/error/displacement.py:Displacement._decrease_disp", "esat/error/displacement.py:Displacement._decrease_disp_p"]}
{"id": "C35", "title": "Displacement results are complete", "statement": "The compiled displacement table has exactly one row for every (dQ level, factor, feature) triple; features that were not requested carry the base value as min and max.", "quantifier": "all factor/feature counts, subsets of requested features", "why_tests_cant": "All subsets and sizes.", "anchors": ["esat/error/displacement.py:Displacement._compile_results"]}
{"id": "C36", "title": "Swap counts are attributed to the right factor", "statement": "Column f of the displacement swap table counts swaps seen while displacing factor f, independent of the completion order of parallel workers.", "quantifier": "all completion orders, factor counts", "why_tests_cant": "Schedules.", "anchors": ["esat/error/displacement.py:Displacement._compile_results", "esat/error/displacement.py:Displacement._increase_disp"]}
{"id": "C37", "title": "Swap table rows are labelled with their dQ level", "statement": "The row shown for dQ level q in the displacement (and BS-DISP) summary is the row accumulated for that level.", "quantifier": "all swap outcomes", "why_tests_cant": "All tables.", "anchors": ["esat/error/displacement.py:Displacement.summary", "esat/error/displacement.py:Displacement.save", "esat/error/bs_disp.py:BSDISP.summary"]}
{"id": "C38", "title": "Swap percentages are percentages", "statement": "Every swap table entry is between 0 and the corresponding count entry, for any number of runs.", "quantifier": "all swap outcomes and repeated runs", "why_tests_cant": "All histories of runs.", "anchors": ["esat/error/displacement.py:Displacement._compile_results"]}
{"id": "C39", "title": "BS-DISP intervals cover every bootstrap run", "statement": "The BS-DISP profile and concentration intervals contain the displacement interval of every bootstrap run.", "quantifier": "all sets of per-run results", "why_tests_cant": "All result sets and sizes.", "anchors": ["esat/error/bs_disp.py:BSDISP.__compile_results"]}
{"id": "C40", "title": "BS-DISP can run its displacement stage in parallel", "statement": "run(parallel=True) produces the same results as run(parallel=False).", "quantifier": "all inputs", "why_tests_cant": "All inputs and schedules.", "anchors": ["esat/error/bs_disp.py:BSDISP.run", "esat/error/bs_disp.py:BSDISP._parallel_disp"]}
{"id": "C41", "title": "At most one constraint per factor element", "statement": "For any sequence of add_constraint/remove_constraint calls, each factor element carries at most one constraint, a successful add makes exactly that constraint visible, a rejected add changes nothing, and removal removes exactly the named constraint.", "quantifier": "all histories of add/remove calls", "why_tests_cant": "All histories.", "anchors": ["esat/rotational/constrained.py:ConstrainedModel.add_constraint", "esat/rotational/constrained.py:ConstrainedModel.remove_constraint"]}
{"id": "C42", "title": "Accepted constraints address existing elements", "statement": "add_constraint returns True only for an index that exists in the targeted matrix, and accepts every existing index.", "quantifier": "all indices, shapes and targets", "why_tests_cant": "All shapes.", "anchors": ["esat/rotational/constrained.py:ConstrainedModel.add_constraint"]}
{"id": "C43", "title": "A limits constraint pulls the element into its limits", "statement": "For a 'define limits' constraint with min<=max the value handed to the update is inside [min,max], and equals the current value when that is already inside.", "quantifier": "all current values and limits", "why_tests_cant": "All reals.", "anchors": ["esat/rotational/constrained.py:ConstrainedModel._apply_constraints"]}
{"id": "C44", "title": "A zero constraint gives (numerically) zero", "statement": "With a 'set to zero' constraint and LS-NMF, the constrained element is exactly zero after every iteration (floored to 1e-12 in the stored solution).", "quantifier": "all data, other constraints, iteration counts", "why_tests_cant": "All histories.", "anchors": ["esat/rotational/constrained.py:ConstrainedModel._apply_constraints", "esat/rotational/constrained.py:ConstrainedModel.train", "esat/model/ls_nmf.py:LSNMF.update"]}
{"id": "C45", "title": "Expressions are parsed as written", "statement": "For every expression built from signed terms in the documented form, the parsed model contains exactly the listed factor elements with their signed coefficients and the dQ limit.", "quantifier": "all expressions of the documented grammar: any number of terms, coefficients, indices", "why_tests_cant": "All strings of the grammar.", "anchors": ["esat/rotational/constrained.py:ConstrainedModel._map_expressions"]}
{"id": "C46", "title": "Expression pulls respect the dQ budget", "statement": "The pull applied for expressions either keeps the change in (Q(true)+Q(aux)) below the summed dQ limits or is no pull at all, and it is always a scaled-down version of the requested pull.", "quantifier": "all loss functions, pulls and limits", "why_tests_cant": "All loss functions.", "anchors": ["esat/rotational/constrained.py:ConstrainedModel._apply_expressions"]}
{"id": "C47", "title": "Pull-to-value never overshoots", "statement": "The value returned for a 'pull to value' constraint lies between the current value and the target; 'pull down' never returns more than the current value, 'pull up' never less.", "quantifier": "all loss responses, current values, targets", "why_tests_cant": "All loss functions.", "anchors": ["esat/rotational/constrained.py:ConstrainedModel._pull_to_value", "esat/rotational/constrained.py:ConstrainedModel._pull_down_value", "esat/rotational/constrained.py:ConstrainedModel._pull_up_value"]}
{"id": "C48", "title": "Q(aux) measures departure from target", "statement": "Q(aux) is non-negative, zero exactly when the solution meets the base-plus-pull target, and decreases as softness grows.", "quantifier": "all matrices and softness>0", "why_tests_cant": "All reals.", "anchors": ["esat/rotational/constrained.py:ConstrainedModel._Qaux_loss"]}
{"id": "C49", "title": "A saved constrained model can be loaded back", "statement": "save(..., pickle_model=True) followed by load of the produced file returns an equivalent ConstrainedModel, and save returns the path.", "quantifier": "all models and directories", "why_tests_cant": "All models.", "anchors": ["esat/rotational/constrained.py:ConstrainedModel.save", "esat/rotational/constrained.py:ConstrainedModel.load"]}
{"id": "C50", "title": "Feature categories take effect exactly as set", "statement": "get_data() after any sequence of valid set_category calls depends only on the last category given to each feature: bad features are dropped, weak ones have their uncertainty tripled (once), strong ones are untouched, and setting a feature back to strong restores the original data.", "quantifier": "all histories of set_category calls, all datasets", "why_tests_cant": "All histories.", "anchors": ["esat/data/datahandler.py:DataHandler.set_category", "esat/data/datahandler.py:DataHandler._set_dataset", "esat/data/datahandler.py:DataHandler.get_data"]}
{"id": "C51", "title": "No missing values reach the model", "statement": "The V and U returned by get_data() contain no NaN.", "quantifier": "all datasets", "why_tests_cant": "All missing-value patterns.", "anchors": ["esat/data/datahandler.py:DataHandler._set_dataset"]}
{"id": "C52", "title": "No zeros reach the model", "statement": "The V and U returned by get_data() contain no zero entries.", "quantifier": "all datasets", "why_tests_cant": "All values, including the float32 conversion.", "anchors": ["esat/data/datahandler.py:DataHandler._set_dataset", "esat/data/datahandler.py:DataHandler.get_data"]}
{"id": "C53", "title": "Splitting by location loses nothing", "statement": "split_locations() returns one handler per location, each row goes to exactly one of them and rows keep their order and values.", "quantifier": "all datasets and location labels", "why_tests_cant": "All datasets.", "anchors": ["esat/data/datahandler.py:DataHandler.split_locations"]}
{"id": "C54", "title": "Merging handlers loses nothing", "statement": "merge() accepts exactly handlers with the same features, and the merged data has every row of every handler once, in order.", "quantifier": "all lists of handlers", "why_tests_cant": "All lists.", "anchors": ["esat/data/datahandler.py:DataHandler.merge"]}
{"id": "C55", "title": "Factor estimator splits cells into train and test", "statement": "The training error and the test error of a factor estimation sample are computed on complementary sets of cells.", "quantifier": "all masks", "why_tests_cant": "All masks.", "anchors": ["esat/estimator.py:FactorEstimator._random_sample", "esat/estimator.py:FactorEstimator._get_mask"]}
{"id": "C56", "title": "Factor estimate is well defined and schedule independent", "statement": "The aggregated errors per factor count do not depend on the order in which samples finish, and the estimated factor number lies in [min_factors, max_factors] whenever every factor count got at least one sample, -1 otherwise.", "quantifier": "all sample outcomes, completion orders", "why_tests_cant": "Schedules.", "anchors": ["esat/estimator.py:FactorEstimator._update_pbar", "esat/estimator.py:FactorEstimator._results"]}
{"id": "C57", "title": "Optimal block length is within bounds", "statement": "The block lengths returned for the bootstrap never exceed ceil(min(3*sqrt(n), n/3)) and are positive for non-degenerate data.", "quantifier": "all series", "why_tests_cant": "All series.", "anchors": ["esat/model/recombinator.py:optimal_block_length"]}
{"id": "C58", "title": "Lag matrix rows are the lagged series", "statement": "mlag(x,n) has len(x) rows and n columns, entry (t,j) is x[t-j-1] when that index exists and the fill value otherwise.", "quantifier": "all series and lags", "why_tests_cant": "All sizes.", "anchors": ["esat/model/recombinator.py:mlag"]}
{"id": "C59", "title": "The flat-top kernel is a valid taper", "statement": "lam is even, equals 1 on [-1/2,1/2], 0 outside [-1,1], lies in [0,1] and is non-increasing in |x|.", "quantifier": "all reals", "why_tests_cant": "All reals.", "anchors": ["esat/model/recombinator.py:lam"]}
{"id": "C60", "title": "The compiled matrix inverse is the inverse", "statement": "The compiled determinant is the determinant for every square matrix, and the compiled inverse is returned exactly when the determinant is nonzero and is then the two-sided inverse.", "quantifier": "all square matrices of all sizes", "why_tests_cant": "All sizes: recursion on dimension.", "anchors": ["rust/lib.rs:determinant", "rust/lib.rs:adjoint", "rust/lib.rs:minor", "rust/lib.rs:calculate_inverse"]}
{"id": "C61", "title": "Factor swap detection is sound and complete", "statement": "A swap is reported iff some displaced factor correlates better with another base factor than with its own.", "quantifier": "all factor matrices", "why_tests_cant": "All correlation tables.", "anchors": ["esat/utils.py:compare_all_factors"]}
{"id": "C62", "title": "Memory estimate never recommends more cores than fit", "statement": "The core recommendation times the per-core estimate never exceeds available memory, and never exceeds the core count.", "quantifier": "all sizes, memory and core counts", "why_tests_cant": "All inputs.", "anchors": ["esat/utils.py:memory_estimate"]}
{"id": "C63", "title": "Synthetic data are positive", "statement": "All synthetic profiles, data and uncertainties produced by the simulator are strictly positive, whatever the random draws.", "quantifier": "all seeds/draws, parameters", "why_tests_cant": "All draws.", "anchors": ["eval/simulator.py:Simulator.generate_profiles", "eval/simulator.py:Simulator._generate_data", "eval/simulator.py:Simulator.update_contribution"]}
{"id": "C64", "title": "Outliers are injected at the documented rate and size", "statement": "Exactly the cells whose uniform draw is below outlier_p/2 are multiplied by outlier_mag, those above 1-outlier_p/2 are divided by it, and all others are unchanged.", "quantifier": "all draws, rates in [0,1], magnitudes", "why_tests_cant": "All draws.", "anchors": ["eval/simulator.py:Simulator._generate_data"]}
{"id": "C65", "title": "Every contribution curve fits the sample count", "statement": "update_contribution succeeds for each documented curve type and every sample count.", "quantifier": "all sample counts, frequencies, curve types", "why_tests_cant": "All sizes.", "anchors": ["eval/simulator.py:Simulator.update_contribution"]}
{"id": "C66", "title": "FactorCompare finds the best factor assignment", "statement": "The reported mapping maximises the average r^2 over all one-to-one assignments of factors, and the best model maximises it over models.", "quantifier": "all correlation tables and factor counts", "why_tests_cant": "Factorially many assignments.", "anchors": ["eval/factor_comparison.py:FactorCompare.compare", "eval/factor_comparison.py:FactorCompare.combine_factors"]}
{"id": "C67", "title": "Perturbation factor map is a one-to-one map from base to model factors", "statement": "determine_map returns for each base factor the model factor it is matched with; the map is one-to-one and the reported metric is that of the matched pair.", "quantifier": "all metric matrices", "why_tests_cant": "All matrices.", "anchors": ["eval/factor_comparison.py:FactorCompareV2.determine_map"]}
{"id": "C68", "title": "The factor catalog is a partition", "statement": "Every factor ever added is stored in exactly one catalog entry, entries are never lost or merged, and the number of new entries reported equals the growth of the catalog.", "quantifier": "all sequences of add_factor/add_model/add_batch calls", "why_tests_cant": "All histories.", "anchors": ["eval/factor_catalog.py:FactorCatalog.add_factor", "eval/factor_catalog.py:FactorCatalog.add_batch"]}
{"id": "C69", "title": "Catalog occurrence percentages use the right model count", "statement": "The model count used for occurrence percentages is the number of models added.", "quantifier": "all sequences of model indices", "why_tests_cant": "All histories.", "anchors": ["eval/factor_catalog.py:FactorCatalog.add_factor", "eval/factor_catalog.py:FactorCatalog.to_df"]}
{"id": "C70", "title": "perturb_percent controls how many cells are perturbed", "statement": "Cells not selected by the perturbation mask keep their uncertainty (multiplier 1); selected cells are multiplied by the reported multiplier; results are positive.", "quantifier": "all draws, percentages, matrices", "why_tests_cant": "All draws.", "anchors": ["eval/perturbation.py:Perturbation.perturb"]}
{"id": "C71", "title": "Selecting one error method is enough to view its results", "statement": "The CLI error summary shows the selected method's results whenever exactly one method flag is given.", "quantifier": "all flag combinations", "why_tests_cant": "Stated outright over all combinations.", "anchors": ["esat/cli/esat_cli.py:error_summary", "esat/cli/esat_cli.py:error_results", "esat/cli/esat_cli.py:get_error_model"]}
{"id": "C72", "title": "CLI stages find each other's files", "statement": "The file a CLI stage writes for a project is the file later stages read, for every project name.", "quantifier": "all project names and directories", "why_tests_cant": "All names.", "anchors": ["esat/cli/esat_cli.py:run_error", "esat/cli/esat_cli.py:run_constrained", "esat/cli/esat_cli.py:get_constrained_model", "esat/rotational/constrained.py:ConstrainedModel.save"]}
{"id": "C73", "title": "Reported RMSE is the root mean square error", "statement": "The RMSE of a feature reported by features_metrics is sqrt(mean squared residual) for every number of samples.", "quantifier": "all sample counts and data", "why_tests_cant": "All sizes.", "anchors": ["esat/data/analysis.py:ModelAnalysis.features_metrics"]}
{"id": "C74", "title": "Factor fingerprints are percentages of each feature", "statement": "The normalised profile of each feature (100*H/colsum) is between 0 and 100 and sums to 100 over factors.", "quantifier": "all positive profiles", "why_tests_cant": "All matrices.", "anchors": ["esat/data/analysis.py:ModelAnalysis.plot_factor_fingerprints", "esat/data/analysis.py:ModelAnalysis.plot_factor_contributions"]}
{"id": "C75", "title": "GPU training gives the CPU result", "statement": "When use_gpu is on (the default) and a GPU device is present, the compiled ls_nmf/ws_nmf functions run the requested iterations and return the same kind of result as the CPU path instead of failing.", "quantifier": "all shapes, iteration counts and hold settings", "why_tests_cant": "No GPU on the test machines, so the path is never executed.", "anchors": ["rust/lib.rs:ls_nmf_gpu", "rust/lib.rs:ws_nmf_gpu", "esat/model/sa.py:SA.__init__"]}
{"id": "C76", "title": "Saving a model as text writes every file", "statement": "SA.save with pickle_model=False writes the metadata, profile, contribution, data and residual files for every value of header, including the default.", "quantifier": "all models and headers", "why_tests_cant": "The saved set depends on the argument combination.", "anchors": ["esat/model/sa.py:SA.save"]}
{"id": "C77", "title": "A WS-NMF update never increases the weighted loss", "statement": "One WS-NMF update (contributions solved, profiles multiplied) does not increase the weighted squared residual.", "quantifier": "all data, weights and positive profiles", "why_tests_cant": "Needs all real matrices.", "anchors": ["esat/model/ws_nmf.py:WSNMF.update", "rust/lib.rs:ws_nmf_cpu"]}
{"id": "C78", "title": "Compiling bootstrap results leaves the trained models unchanged", "statement": "Computing the bootstrap statistics does not modify the factor matrices of the base model or of the bootstrap models.", "quantifier": "all models, statistics requests and repeated calls", "why_tests_cant": "Aliasing depends on the values and the order of calls.", "anchors": ["esat/error/bootstrap.py:Bootstrap._factor_statistics", "esat/error/bootstrap.py:Bootstrap._calculate_factors"]}
{"id": "C79", "title": "Error methods work for any number of runs", "statement": "Bootstrap with any bootstrap_n and parallel displacement with any number of factors and features train all their models.", "quantifier": "all run counts, factor and feature counts", "why_tests_cant": "Tests use small counts; the limit is the width of the compiled model number.", "anchors": ["esat/error/bootstrap.py:Bootstrap._train", "esat/error/displacement.py:Displacement._increase_disp_p", "rust/lib.rs:ls_nmf"]}
{"id": "C80", "title": "Displacement intervals contain the base value", "statement": "For every requested feature and dQ level the reported profile interval contains the base profile value.", "quantifier": "all loss responses, models and levels", "why_tests_cant": "All loss functions.", "anchors": ["esat/error/displacement.py:Displacement._compile_results", "esat/error/displacement.py:Displacement._increase_disp", "esat/error/displacement.py:Displacement._decrease_disp"]}
{"id": "C81", "title": "A decrease of the loss during displacement is reported", "statement": "When retraining a displaced model ends below the base loss, the reported largest decrease of Q is that decrease and not zero.", "quantifier": "all models and retraining outcomes", "why_tests_cant": "Depends on the sign convention over all outcomes.", "anchors": ["esat/error/displacement.py:Displacement._compile_results", "esat/error/displacement.py:Displacement.summary"]}
{"id": "C82", "title": "Constrained training stops exactly at convergence", "statement": "Constrained training flags convergence exactly when the last converge_n values of Q(main) lie within converge_delta after more than converge_n iterations, stops at the first such iteration and otherwise runs max_iterations.", "quantifier": "all update functions, losses, windows, tolerances and iteration counts", "why_tests_cant": "All loss sequences.", "anchors": ["esat/rotational/constrained.py:ConstrainedModel.train"]}
{"id": "C83", "title": "Pull searches respect the dQ limit", "statement": "The value returned by a pull search changes Q by at most the dQ limit of the constraint, whenever some pull in the requested direction does.", "quantifier": "all loss responses, limits and values", "why_tests_cant": "All loss responses.", "anchors": ["esat/rotational/constrained.py:ConstrainedModel._pull_down_value", "esat/rotational/constrained.py:ConstrainedModel._pull_up_value", "esat/rotational/constrained.py:ConstrainedModel._pull_to_value"]}
{"id": "C84", "title": "The coefficient used for an element is the one written", "statement": "In every expression the coefficient used for a factor element is the signed coefficient written in that expression, in total over its occurrences and including a leading minus sign.", "quantifier": "all expression texts", "why_tests_cant": "All texts.", "anchors": ["esat/rotational/constrained.py:ConstrainedModel._map_expressions", "esat/rotational/constrained.py:ConstrainedModel._apply_expressions"]}
{"id": "C85", "title": "Expression pulls aim at the equation", "statement": "The target of the expression solver is a set of element values for which the expressions hold (their left hand sides equal the right hand sides).", "quantifier": "all expressions, coefficients and current solutions", "why_tests_cant": "All systems.", "anchors": ["esat/rotational/constrained.py:ConstrainedModel._apply_expressions"]}
{"id": "C86", "title": "Expression evaluation reads the constrained elements", "statement": "evaluate_expressions reports for each element the value of the element the expression constrains.", "quantifier": "all elements and matrices", "why_tests_cant": "All shapes.", "anchors": ["esat/rotational/constrained.py:ConstrainedModel.evaluate_expressions", "esat/rotational/constrained.py:ConstrainedModel._apply_expressions"]}
{"id": "C87", "title": "plot_Q plots Q(main) as the sum of Q(true) and Q(aux)", "statement": "The series plotted as Q(main) is the elementwise sum of Q(true) and Q(aux), of the length of the x axis.", "quantifier": "all training histories", "why_tests_cant": "The plot is not inspected by tests.", "anchors": ["esat/rotational/constrained.py:ConstrainedModel.plot_Q"]}
{"id": "C88", "title": "Plot data are available after loading", "statement": "After loading a dataset the frames used by the plotting methods are available, whichever way the handler was built and however many samples it has.", "quantifier": "all ways to build a handler, all sample counts", "why_tests_cant": "All sample counts.", "anchors": ["esat/data/datahandler.py:DataHandler._aggregate_data", "esat/data/datahandler.py:DataHandler.load_dataframe"]}
{"id": "C89", "title": "A merged handler still produces data", "statement": "get_data() of a handler after a successful merge() succeeds.", "quantifier": "all lists of handlers", "why_tests_cant": "All lists.", "anchors": ["esat/data/datahandler.py:DataHandler.merge", "esat/data/datahandler.py:DataHandler._set_dataset"]}
{"id": "C90", "title": "Split handlers exclude the location columns", "statement": "The data of a handler returned by split_locations() has the same features as the handler it was split from.", "quantifier": "all datasets and locations", "why_tests_cant": "All datasets.", "anchors": ["esat/data/datahandler.py:DataHandler.split_locations", "esat/data/datahandler.py:DataHandler.load_dataframe"]}
{"id": "C91", "title": "Signal to noise ratio", "statement": "For positive uncertainties the signal to noise ratio of a feature is defined, non-negative and zero exactly when no value exceeds its uncertainty.", "quantifier": "all features", "why_tests_cant": "All values.", "anchors": ["esat/data/datahandler.py:DataHandler._load_data"]}
{"id": "C92", "title": "Choice of the bandwidth for the block length", "statement": "m_hat is the smallest lag at which a run of kn insignificant auto-correlations starts, or the largest significant lag if there is no such run; the bandwidth is min(m_max, 2*m_hat) and every auto-covariance is paired with the kernel weight of its own lag.", "quantifier": "all auto-correlation sequences, thresholds and sizes", "why_tests_cant": "All sequences, including those without an insignificant run.", "anchors": ["esat/model/recombinator.py:optimal_block_length"]}
{"id": "C93", "title": "The block size of the data handler is usable", "statement": "The block size determined by the data handler is at least one and at most the number of samples.", "quantifier": "all datasets", "why_tests_cant": "All datasets, including constant features.", "anchors": ["esat/data/datahandler.py:DataHandler._determine_optimal_block"]}
{"id": "C94", "title": "min_timestep returns the smallest time step", "statement": "min_timestep returns the smallest spacing of neighbouring timestamps as a pandas frequency.", "quantifier": "all time indices", "why_tests_cant": "All indices.", "anchors": ["esat/utils.py:min_timestep"]}
{"id": "C95", "title": "Default number of worker processes", "statement": "Without an explicit number the batch uses at least one process and at most the available cores, fits into memory whenever one model does, and equals the documented default of cores minus one.", "quantifier": "all memory sizes, core counts and model sizes", "why_tests_cant": "All machines.", "anchors": ["esat/model/batch_sa.py:BatchSA.__init__", "esat/utils.py:memory_estimate"]}
{"id": "C96", "title": "The factor estimate minimises the penalised test error", "statement": "The estimated factor number minimises mean test error times the power of the factor number.", "quantifier": "all mean test errors", "why_tests_cant": "All error curves.", "anchors": ["esat/estimator.py:FactorEstimator._results"]}
{"id": "C97", "title": "Random profiles of the simulator", "statement": "A simulator can be constructed for every positive number of factors; each feature is carried by at least one factor, drawn values are used as drawn and all entries are below one.", "quantifier": "all factor and feature counts, all draws", "why_tests_cant": "All draws and sizes.", "anchors": ["eval/simulator.py:Simulator.generate_profiles"]}
{"id": "C98", "title": "Custom profiles of the simulator", "statement": "Custom profiles of the requested shape are used, with non-positive entries replaced; matrices of another shape are rejected or only fill the rows they have.", "quantifier": "all custom matrices", "why_tests_cant": "All shapes.", "anchors": ["eval/simulator.py:Simulator.generate_profiles"]}
{"id": "C99", "title": "Contribution curves stay between minimum and maximum", "statement": "Before the noise every contribution curve lies between the given minimum and maximum.", "quantifier": "all curve types, sample counts and parameters", "why_tests_cant": "All parameters.", "anchors": ["eval/simulator.py:Simulator.update_contribution"]}
{"id": "C100", "title": "Failed models are skipped in the factor comparison", "statement": "Models of a batch which are None are skipped and all others are compared.", "quantifier": "all batches", "why_tests_cant": "All positions of failed models.", "anchors": ["eval/factor_comparison.py:FactorCompare._parse_sa_output", "eval/factor_comparison.py:FactorCompare.compare"]}
{"id": "C101", "title": "Printed base loss", "statement": "The base Q(true) printed by the comparison is the loss of the base solution with the given uncertainties.", "quantifier": "all data, uncertainties and base solutions", "why_tests_cant": "All matrices.", "anchors": ["eval/factor_comparison.py:FactorCompare.print_results"]}
{"id": "C102", "title": "EMC metric", "statement": "The EMC metric of two factors equals the squared correlation of their profiles, does not depend on the contributions, and is one for identical factors.", "quantifier": "all factor matrices with non-zero totals", "why_tests_cant": "All matrices.", "anchors": ["eval/factor_comparison.py:FactorCompareV2.calculate_correlation_matrix"]}
{"id": "C103", "title": "RAAE metric", "statement": "The relative average absolute error is the total absolute difference over the total base contribution, not negative, and zero exactly for equal contributions.", "quantifier": "all contributions with positive base total", "why_tests_cant": "All vectors.", "anchors": ["eval/factor_comparison.py:FactorCompareV2.calculate_correlation_matrix", "eval/factor_catalog.py:Factor.check"]}
{"id": "C104", "title": "Admission to a catalog entry", "statement": "A factor is compared with every entry, joins the best one, and meets the threshold with every member of the entry it joins.", "quantifier": "all catalogs and factors", "why_tests_cant": "All histories.", "anchors": ["eval/factor_catalog.py:FactorCatalog.check_factor", "eval/factor_catalog.py:FactorCatalog.add_factor"]}
{"id": "C105", "title": "compare_factor returns the most similar entry", "statement": "compare_factor returns the catalog entry most similar to the given factor, for each method.", "quantifier": "all catalogs, factors and methods", "why_tests_cant": "All histories.", "anchors": ["eval/factor_catalog.py:FactorCatalog.compare_factor"]}
{"id": "C106", "title": "Catalog with profiles only", "statement": "With profile_only a copy of a cataloged factor joins the entry of the original, for each method.", "quantifier": "all factors and methods", "why_tests_cant": "All factors.", "anchors": ["eval/factor_catalog.py:Factor.check", "eval/factor_catalog.py:FactorCatalog.check_factor"]}
{"id": "C107", "title": "Outlier models are excluded from the catalog", "statement": "With exclusion exactly the factors of models with loss at most outlier_threshold times the smallest loss are added; the best model is never excluded; without exclusion all factors are added.", "quantifier": "all batches and thresholds", "why_tests_cant": "All batches.", "anchors": ["eval/factor_catalog.py:FactorCatalog.add_batch"]}
{"id": "C108", "title": "BS-DISP from the command line", "statement": "The BS-DISP stage of run-error starts exactly when a bootstrap was run by the same command or a bootstrap output file is configured; with --bsdisp alone and the default configuration it raises.", "quantifier": "all flag combinations, configurations and stored bootstraps", "why_tests_cant": "All combinations.", "anchors": ["esat/cli/esat_cli.py:run_error", "esat/error/bs_disp.py:BSDISP.__init__"]}
{"id": "C109", "title": "Features of the BS-DISP stage", "statement": "The features displaced by the BS-DISP stage are those of the [disp] section; the features setting of the [bsdisp] section has no influence.", "quantifier": "all configurations", "why_tests_cant": "All configurations.", "anchors": ["esat/cli/esat_cli.py:run_error", "esat/configs.py"]}
{"id": "C110", "title": "Boolean settings in configuration files", "statement": "parallel and verbose take effect as written; init_norm and the outliers setting of the simulator are true for every non-empty text.", "quantifier": "all setting texts", "why_tests_cant": "All texts.", "anchors": ["esat/cli/esat_cli.py:run", "esat/model/batch_sa.py:BatchSA.__init__", "eval/simulator.py:Simulator.__init__"]}
{"id": "C111", "title": "Factor indices of the plot commands", "statement": "The factor index of the plot commands counts from one; the default index 0 shows nothing.", "quantifier": "all factor counts and indices", "why_tests_cant": "All indices.", "anchors": ["esat/cli/esat_cli.py:solution_factor_profile", "esat/cli/esat_cli.py:solution_g_space", "esat/data/analysis.py:ModelAnalysis.plot_factor_profile"]}
{"id": "C112", "title": "Analysis commands use unprocessed data", "statement": "Every solution analysis command that uses the processed input data raises, because its data handler is created without processing the data; one call of get_data would be enough.", "quantifier": "all data sets", "why_tests_cant": "All data sets.", "anchors": ["esat/cli/esat_cli.py:get_model_analysis", "esat/data/datahandler.py:DataHandler.get_data", "esat/data/analysis.py:ModelAnalysis.calculate_statistics"]}
{"id": "C113", "title": "Reachable commands", "statement": "A command is reachable under its name if no later command of the group has the same name; plot_profile_contributions of the constrained analysis cannot be reached.", "quantifier": "all command lists and names", "why_tests_cant": "All names.", "anchors": ["esat/cli/esat_cli.py:constrained_profile_contributions"]}
{"id": "C114", "title": "Regression statistics of a feature", "statement": "Slope and intercept are the unique least-squares line of estimated on observed values and SE Regression is the root mean squared distance from it.", "quantifier": "all observed values that are not all equal and all estimates", "why_tests_cant": "All real vectors.", "anchors": ["esat/data/analysis.py:ModelAnalysis.calculate_statistics"]}
{"id": "C115", "title": "Average of the normalised contributions", "statement": "The contributions in the factor profile plot average to one; those of the g-space plot to 1/samples and those of the factor contributions plot to 100/samples, so their label avg=1 holds only for 1 and 100 samples.", "quantifier": "all contributions with non-zero total", "why_tests_cant": "All vectors.", "anchors": ["esat/data/analysis.py:ModelAnalysis.plot_factor_profile", "esat/data/analysis.py:ModelAnalysis.plot_g_space", "esat/data/analysis.py:ModelAnalysis.plot_factor_contributions"]}
{"id": "C116", "title": "Contribution threshold", "statement": "The threshold test rejects exactly the negative values; the pie chart contains exactly the factors above the threshold, each with its own number, at most one for thresholds of 50 or more.", "quantifier": "all thresholds and profiles", "why_tests_cant": "All values.", "anchors": ["esat/data/analysis.py:ModelAnalysis.plot_factor_contributions"]}
{"id": "C117", "title": "Labels of the residual curves", "statement": "With a data handler each trained model is drawn with its own number and the best one visible; without one this holds if no model failed, and otherwise each label is reduced by the number of failed models before it.", "quantifier": "all batches with any failed models", "why_tests_cant": "All positions of failures.", "anchors": ["esat/data/analysis.py:BatchAnalysis.plot_temporal_residuals"]}
{"id": "C118", "title": "Three-dimensional factor plot", "statement": "plot_all_factors_3d raises exactly for the plot type both; conc shows concentrations and anything else percentages.", "quantifier": "all plot type texts", "why_tests_cant": "All texts.", "anchors": ["esat/data/analysis.py:ModelAnalysis.plot_all_factors_3d"]}
{"id": "C119", "title": "Percentages of the surface plot", "statement": "The values of the surface plot add up to WH/V over the factors, which is one only where the estimate is exact, and are undefined where the data are zero.", "quantifier": "all factor matrices and data", "why_tests_cant": "All matrices.", "anchors": ["esat/data/analysis.py:ModelAnalysis.plot_factor_surface"]}
{"id": "C120", "title": "Lines of the observed/estimated plot", "statement": "The one-to-one line passes through (x, x) for every observation, and the regression line is the least-squares line of the statistics table.", "quantifier": "all data and all minimisers returned by the solver", "why_tests_cant": "All vectors.", "anchors": ["esat/data/analysis.py:ModelAnalysis.plot_estimated_observed"]}
{"id": "C121", "title": "Data for the plots", "statement": "Without aggregation the plotted estimate is WH; the constructor leaves usable plot data exactly for at most max_plotting_n samples.", "quantifier": "all factor matrices and sample counts", "why_tests_cant": "All sizes.", "anchors": ["esat/data/analysis.py:ModelAnalysis.aggregate_factors_for_plotting", "esat/data/datahandler.py:DataHandler._aggregate_data"]}
{"id": "C122", "title": "Plot titles", "statement": "Plots with a model number in the title raise exactly if selected_model has its default None.", "quantifier": "all model numbers", "why_tests_cant": "All values.", "anchors": ["esat/data/analysis.py:ModelAnalysis.__init__", "esat/data/analysis.py:ModelAnalysis.plot_factor_profile"]}
{"id": "C123", "title": "Concentration bars", "statement": "The bar of a feature is the total contribution of the factor times its profile entry and the bars add up to the column sum of WH over the factors.", "quantifier": "all factor matrices", "why_tests_cant": "All matrices.", "anchors": ["esat/data/analysis.py:ModelAnalysis.plot_factor_profile", "esat/data/analysis.py:ModelAnalysis.plot_all_factors"]}
{"id": "C124", "title": "Concentration axis", "statement": "The top of a bar lies in the range of the logarithmic axis exactly if its concentration is at least one.", "quantifier": "all positive concentrations", "why_tests_cant": "All values.", "anchors": ["esat/data/analysis.py:ModelAnalysis.plot_factor_profile"]}
{"id": "C125", "title": "Saving and loading error estimates", "statement": "Displacement, Bootstrap, BSDISP and Simulator write nothing and report failure unless the directory is absolute and exists; load returns an object exactly if an absolute path holds a file that unpickles to it; displacement, BS-DISP and simulator pickles are read back from the path that save reports.", "quantifier": "all file systems, path texts, objects and pickled contents", "why_tests_cant": "All file systems and paths.", "anchors": ["esat/error/displacement.py:Displacement.save", "esat/error/bootstrap.py:Bootstrap.load", "esat/error/bs_disp.py:BSDISP.save", "eval/simulator.py:Simulator.save"]}
{"id": "C126", "title": "Return value of Bootstrap.save", "statement": "With pickle_result=True the file of the bootstrap is written and can be read back, but save never returns its path.", "quantifier": "all file systems, path texts and bootstraps", "why_tests_cant": "All file systems.", "anchors": ["esat/error/bootstrap.py:Bootstrap.save"]}
{"id": "C127", "title": "BS-DISP results saved as text", "statement": "With pickle_result=False, BSDISP.save returns the path of a pickle file that it did not write, and the metadata file holds the metadata of the bootstrap.", "quantifier": "all file systems and all BS-DISP results with a bootstrap", "why_tests_cant": "All file systems.", "anchors": ["esat/error/bs_disp.py:BSDISP.save", "esat/error/bootstrap.py:Bootstrap.save"]}
{"id": "C128", "title": "JSON files of the error estimates", "statement": "A value written with the encoder is recovered by json.load, up to tuple/list and number types, exactly if it contains no object unknown to the encoder; such objects, e.g. the set of excluded features and the models of the bootstrap, become null.", "quantifier": "all nested values", "why_tests_cant": "All values.", "anchors": ["esat/utils.py:np_encoder", "esat/error/displacement.py:Displacement.save", "esat/error/bootstrap.py:Bootstrap.save"]}
{"id": "C129", "title": "Swap and count tables of BS-DISP", "statement": "The tables are the sums of the tables of all displacement runs, added to the values before the call; the number of DISP swaps is the number of runs with at least one swap.", "quantifier": "all run results, orders and previous counters", "why_tests_cant": "All sets of runs.", "anchors": ["esat/error/bs_disp.py:BSDISP.__compile_results"]}
{"id": "C130", "title": "Number of Q drops of BS-DISP", "statement": "The reported number of Q drops counts the runs with a drop except the run with the largest number; it is right exactly if that run has none.", "quantifier": "all run results and completion orders", "why_tests_cant": "All sets of runs.", "anchors": ["esat/error/bs_disp.py:BSDISP.__compile_results"]}
{"id": "C131", "title": "Number of best-fit swaps", "statement": "The number of best-fit swaps is the number of factors that some bootstrap run does not map to the base factor of the same number.", "quantifier": "all mappings of all runs", "why_tests_cant": "All mappings.", "anchors": ["esat/error/bs_disp.py:BSDISP.__compile_results", "esat/error/bootstrap.py:Bootstrap._build_table"]}
{"id": "C132", "title": "Largest change of Q", "statement": "The reported largest change is an entry of the column with the largest absolute value, and the smallest entry if no entry is positive.", "quantifier": "all non-empty columns", "why_tests_cant": "All vectors.", "anchors": ["esat/error/displacement.py:Displacement.summary", "esat/error/bs_disp.py:BSDISP.summary"]}
{"id": "C133", "title": "Rows of the displacement plots", "statement": "For a factor and a dQ level the plots select exactly one row per feature, in the order of the features.", "quantifier": "all results, factors, levels and feature counts", "why_tests_cant": "All tables.", "anchors": ["esat/error/displacement.py:Displacement.plot_profile", "esat/error/displacement.py:Displacement.__compile_results"]}
{"id": "C134", "title": "dQ level of the plots", "statement": "A dQ argument that is not a level is replaced by 4 in plot_profile and plot_contribution of both classes and by the documented default in plot_results, so the plots always have one row per feature; for BS-DISP the documented default is 0.5.", "quantifier": "all dQ arguments", "why_tests_cant": "All values.", "anchors": ["esat/error/bs_disp.py:BSDISP.plot_profile", "esat/error/bs_disp.py:BSDISP.plot_results", "esat/error/displacement.py:Displacement.plot_results"]}
{"id": "C135", "title": "Bootstrap summary changes the base model", "statement": "Bootstrap.summary sets every profile entry of the base model below 1e-5 to zero and changes nothing else.", "quantifier": "all profile matrices", "why_tests_cant": "All matrices.", "anchors": ["esat/error/bootstrap.py:Bootstrap.summary", "esat/error/bootstrap.py:Bootstrap.show_factor_results"]}
{"id": "C136", "title": "Tables of the bootstrap runs", "statement": "The tabulated contribution of a factor is its concentration up to rounding and cut-offs; the tabulated profile of a feature is defined exactly if some factor reaches the cut-off, and then adds up to one over the factors up to rounding and cut-offs.", "quantifier": "all non-negative models, roundings and cut-offs", "why_tests_cant": "All matrices.", "anchors": ["esat/error/bootstrap.py:Bootstrap._calculate_factors", "esat/error/bootstrap.py:Bootstrap._factor_statistics"]}
{"id": "C137", "title": "Order of the factors in the bootstrap tables", "statement": "The tables of the runs are filled by position: a run that finds the base factors in another order is mapped with correlation one and filed under the wrong factors.", "quantifier": "all models with distinguishable factors and all permutations", "why_tests_cant": "All permutations.", "anchors": ["esat/error/bootstrap.py:Bootstrap._calculate_factors", "esat/error/bootstrap.py:Bootstrap.map_contributions"]}
{"id": "C138", "title": "Combined error plot", "statement": "Error.plot_summary draws nothing exactly if neither bootstrap nor displacement is given or the factor is not one of 1..k; otherwise each bootstrap bar spans exactly the floored contributions of the runs, the displacement bars are the level-4 rows of the factor in feature order and the markers are the concentrations of the last method given.", "quantifier": "all results and factor numbers", "why_tests_cant": "All results.", "anchors": ["esat/error/error.py:Error.plot_summary"]}
{"id": "C139", "title": "Signs in floating point", "statement": "In IEEE arithmetic with any rounding to nearest and any order of the sums, ls-nmf never produces a negative entry or -0 from data, weights and factors without sign bits; entries may become infinite or NaN.", "quantifier": "all roundings, evaluation orders, sizes, numbers of iterations and inputs without sign bits", "why_tests_cant": "All floating point inputs and summation orders.", "anchors": ["esat/model/ls_nmf.py:LSNMF.update", "rust/lib.rs:ls_nmf_update_cpu"]}
{"id": "C140", "title": "Zeros in floating point", "statement": "In floating point a zero of W or H stays zero under ls-nmf updates or becomes NaN.", "quantifier": "all roundings, evaluation orders, numbers of iterations and inputs", "why_tests_cant": "All floating point inputs.", "anchors": ["esat/model/ls_nmf.py:LSNMF.update", "rust/lib.rs:ls_nmf_update_cpu"]}
{"id": "C141", "title": "Sign of the computed loss", "statement": "The loss computed by the compiled loops is never negative and never -0, for finite, infinite and NaN inputs; it may be +inf or NaN.", "quantifier": "all roundings, evaluation orders and inputs", "why_tests_cant": "All floating point inputs.", "anchors": ["rust/lib.rs:calculate_q_cpu"]}
{"id": "C142", "title": "ws-nmf profiles in floating point", "statement": "The ws-nmf update of H never gives a negative entry from non-negative H in floating point, for any data, weights and contributions; the positive and negative parts of W have no sign bit.", "quantifier": "all roundings, evaluation orders and inputs", "why_tests_cant": "All floating point inputs.", "anchors": ["esat/model/ws_nmf.py:WSNMF.update", "rust/lib.rs:ws_nmf_update_cpu"]}
{"id": "C143", "title": "Spread of NaN", "statement": "One NaN in the data, the weights or a factor makes all of W NaN after one ls-nmf update and all of H after two; from then on the loss is NaN and the convergence test is never met.  With H held only the row of the NaN is spoilt.", "quantifier": "all roundings, evaluation orders, sizes and inputs with a NaN", "why_tests_cant": "All inputs.", "anchors": ["esat/model/ls_nmf.py:LSNMF.update", "rust/lib.rs:ls_nmf_update_cpu"]}
{"id": "C144", "title": "Underflow and overflow", "statement": "Strictly positive finite single precision inputs can give NaN and infinite factors in one ls-nmf update: if WH underflows, or if the uncertainty is so small that its weight overflows.", "quantifier": "existence of inputs and evaluation in IEEE single precision", "why_tests_cant": "Needs extreme magnitudes.", "anchors": ["esat/model/ls_nmf.py:LSNMF.update", "rust/lib.rs:ls_nmf_update_cpu", "esat/model/sa.py:SA.__init__"]}
{"id": "C145", "title": "Accuracy of the update", "statement": "If the numbers of the exact update stay in the normal range and no denominator is zero, the computed ls-nmf update is finite and agrees entry by entry with the exact update up to (2^24/(2^24-1))^(3d+4) for H and ^(12d+16) for W in single precision, where d bounds the roundings per term of a sum, for every order of summation.", "quantifier": "all formats with at least two bits, sizes, evaluation orders and inputs in range", "why_tests_cant": "All floating point inputs and summation orders.", "anchors": ["esat/model/ls_nmf.py:LSNMF.update", "rust/lib.rs:ls_nmf_update_cpu"]}
{"id": "C146", "title": "Loss in single precision", "statement": "Unlike in exact arithmetic the loss recorded in single precision can increase from one iteration to the next.", "quantifier": "existence of inputs and evaluation in IEEE single precision", "why_tests_cant": "Needs a constructed case.", "anchors": ["rust/lib.rs:ls_nmf_update_cpu", "rust/lib.rs:calculate_q_cpu"]}
{"id": "C147", "title": "Creating a DataImputer", "statement": "The constructor of DataImputer always raises: NameError if scikit-learn is installed, ImportError otherwise.", "quantifier": "both outcomes of the import", "why_tests_cant": "Depends on the environment.", "anchors": ["esat/data/impute.py:DataImputer.__init__"]}
{"id": "C148", "title": "Imputing missing values", "statement": "impute rejects unknown strategies; with a missing value other than None it always raises AttributeError after setting the mask; with None it returns both tables with present cells unchanged and missing cells filled exactly if no column is entirely missing, and raises ValueError otherwise; the mean strategy stays within the range of the column.", "quantifier": "all tables, strategies, missing values and imputers", "why_tests_cant": "All tables.", "anchors": ["esat/data/impute.py:DataImputer.impute", "esat/data/impute.py:DataImputer._run_simple_imputer"]}
{"id": "C149", "title": "Standardised profiles in the comparison with PMF5", "statement": "A standardised row is defined exactly if its sum is not zero, adds up to one, is proportional to the row, invariant under scaling and within 0..1 for non-negative rows.", "quantifier": "all rows", "why_tests_cant": "All rows.", "anchors": ["esat/data/test_tools.py:CompareAnalyzer._standardize"]}
{"id": "C150", "title": "Figures of the comparison with PMF5", "statement": "Factor time series add up to the modelled data exactly for one-to-one mappings; reordering factors does not change the modelled data; the feature shown is the one asked for or the one numbered, with wrap-around only in plot_factor_contribution; plot_factors works exactly for at most six factors; the residual count includes residuals equal to the threshold.", "quantifier": "all tables, mappings, feature names and numbers", "why_tests_cant": "All inputs.", "anchors": ["esat/data/test_tools.py:CompareAnalyzer._matmul", "esat/data/test_tools.py:CompareAnalyzer.plot_feature_timeseries", "esat/data/test_tools.py:CompareAnalyzer.plot_factors", "esat/data/test_tools.py:CompareAnalyzer.feature_histogram"]}
{"id": "C151", "title": "Training converges", "statement": "From positive factors and non-negative data without empty rows or columns an ls-nmf run with positive converge_delta converges: if p times converge_delta exceeds the starting loss, the compiled loop does so within (converge_n - 1)·p + 1 iterations and the Python loop within one more; with converge_n at most 1 the compiled loop stops after its first iteration.", "quantifier": "all data, uncertainties, starting factors, numbers of factors, hold and delay settings and stopping parameters", "why_tests_cant": "All numbers of iterations.", "anchors": ["esat/model/sa.py:SA.train", "rust/lib.rs:ls_nmf_update_cpu"]}
{"id": "C152", "title": "A tolerance of zero", "statement": "With converge_delta zero or negative an ls-nmf run never reports convergence, even from an exact solution, and performs all max_iter iterations.", "quantifier": "all data, starting factors and stopping parameters", "why_tests_cant": "All numbers of iterations.", "anchors": ["esat/model/sa.py:SA.train", "rust/lib.rs:ls_nmf_update_cpu"]}
{"id": "C153", "title": "Bounds during training", "statement": "During a whole ls-nmf run every scaled residual stays below the root of the starting loss, and every product of a contribution and a profile entry stays positive and below the data plus that multiple of the uncertainty.", "quantifier": "all data, starting factors, schedules and iterations", "why_tests_cant": "All numbers of iterations.", "anchors": ["esat/model/sa.py:SA.train", "rust/lib.rs:ls_nmf_update_cpu"]}
{"id": "C154", "title": "Limits of training", "statement": "Every limit point of an endless sequence of ls-nmf updates at which the update is defined is unchanged by it; one without zeros cannot be improved by changing W alone or H alone; a limit of positive factors is the best choice of H for its W and of W for its H among all non-negative matrices, zero entries included. In particular, if the results of the compiled runs with max_iter = 1, 2, 3, … and converge_delta <= 0 from positive factors settle, no other non-negative profiles give a smaller Q with the limiting contributions and no other non-negative contributions with the limiting profiles, whether or not the update of the limit is defined.", "quantifier": "all data, weights and infinite sequences of updates", "why_tests_cant": "Infinite sequences.", "anchors": ["esat/model/ls_nmf.py:LSNMF.update", "rust/lib.rs:ls_nmf_update_cpu"]}
{"id": "C155", "title": "One factor", "statement": "With one factor an ls-nmf update is exact alternating least squares: the new profile is optimal for the old contributions and the new contributions for the new profile.", "quantifier": "all data, weights and single-factor models", "why_tests_cant": "All inputs.", "anchors": ["esat/model/ls_nmf.py:LSNMF.update"]}
{"id": "C156", "title": "Uncertainties of the robust loss", "statement": "An ls-nmf update with the uncertainties returned by qr_loss never increases Huber's loss (s^2 up to alpha, 2·alpha·s - alpha^2 beyond), because the reweighted loss majorises it; the robust loss the code reports can increase in the same update.", "quantifier": "all data, uncertainties, factors and alpha", "why_tests_cant": "All inputs.", "anchors": ["esat/metrics.py:qr_loss", "esat/model/ls_nmf.py:LSNMF.update"]}
{"id": "C157", "title": "robust_mode", "statement": "robust_mode and robust_n have no effect on SA.train: training is the same for all their values, while training with the robust uncertainties, as documented, would give different factors.", "quantifier": "all data, starting factors and values of the parameters", "why_tests_cant": "All inputs.", "anchors": ["esat/model/sa.py:SA.train"]}
{"id": "C158", "title": "Fixed points of ws-nmf", "statement": "One ws-nmf update leaves a profile entry unchanged exactly if it is zero or the slope of the loss in it equals a defect made of products of the negative and positive parts of W; without negative contributions the defect is zero. If an update changes nothing at all, the reconstruction from the negative parts is orthogonal to the whole reconstruction, so that a one-factor model with a positive profile has no negative contribution. An exact factorisation is kept exactly if the defect vanishes at every non-zero entry.", "quantifier": "all data, weights and factors of either sign", "why_tests_cant": "All inputs.", "anchors": ["esat/model/ws_nmf.py:WSNMF.update", "rust/lib.rs:ws_nmf_update_cpu"]}
{"id": "C159", "title": "A single feature under ws-nmf", "statement": "With one feature and one factor the contributions computed by a ws-nmf update reproduce the data exactly; the profile then grows exactly if some sample is negative, and exactly then the loss recorded after the update is positive.", "quantifier": "all data, positive weights and positive starting profiles with one feature and one factor", "why_tests_cant": "All inputs.", "anchors": ["esat/model/ws_nmf.py:WSNMF.update"]}
{"id": "C160", "title": "The table of constraints", "statement": "evaluate_constraints shows one row per constraint in the order of addition, with the element of the base model and of the constrained model which the constraint addresses, its target and its limit; it raises exactly if a constraint exists and the model has not been trained, or if a constraint on a contribution has a second index which is not a factor.", "quantifier": "all histories of additions and removals and all models", "why_tests_cant": "Unbounded histories.", "anchors": ["esat/rotational/constrained.py:ConstrainedModel.evaluate_constraints", "esat/rotational/constrained.py:ConstrainedModel.add_constraint"]}
{"id": "C161", "title": "The table of expressions", "statement": "For documented expressions on profile elements evaluate_expressions shows, for every expression in order, the limit and the signed weighted sum of the addressed entries of the base and of the constrained profiles; it raises before training and after training without expressions.", "quantifier": "all lists of documented expressions and all models", "why_tests_cant": "Unbounded lists of expressions.", "anchors": ["esat/rotational/constrained.py:ConstrainedModel.evaluate_expressions", "esat/rotational/constrained.py:ConstrainedModel._map_expressions"]}
{"id": "C162", "title": "Figures of the constrained model", "statement": "The figures of a factor show the concentrations, percentages and contributions of the factor with the given number, counted from one; a direct call of plot_profile with f <= 0 shows factor k + f; in the scatter plot of two factors the titles are exchanged unless both numbers agree, while the figure of the base model has them right; the fingerprints raise exactly with more factors than colours; the feature numbers of the pie chart differ by one from those of the base model.", "quantifier": "all models and all numbers", "why_tests_cant": "All inputs.", "anchors": ["esat/rotational/constrained.py:ConstrainedModel.plot_profile", "esat/rotational/constrained.py:ConstrainedModel.plot_g_space", "esat/rotational/constrained.py:ConstrainedModel.plot_factor_fingerprints", "esat/rotational/constrained.py:ConstrainedModel.plot_factor_contributions", "esat/data/analysis.py:ModelAnalysis.plot_g_space"]}
{"id": "C163", "title": "The response of the displacement search", "statement": "The change of Q evaluated by the two displacement searches is a quadratic polynomial in the displacement of the profile entry, whose leading coefficient is the sum of the squared ratios of contribution and uncertainty; its slope at the base model vanishes for every positive entry at which numerator and denominator of the ls-nmf update of the profiles agree.", "quantifier": "all data, uncertainties, factors and entries", "why_tests_cant": "All inputs.", "anchors": ["esat/error/displacement.py:Displacement._increase_disp", "esat/error/displacement.py:Displacement._decrease_disp", "esat/error/displacement.py:Displacement._increase_disp_p", "esat/error/displacement.py:Displacement._decrease_disp_p", "esat/metrics.py:q_loss"]}
{"id": "C164", "title": "Closed form of the displacement interval", "statement": "At a positive entry with zero slope and sensitivity A every level dQ which the hundred doublings can reach is met upwards, with A times the squared displacement between the level minus the threshold and the level. The same holds downwards if setting the entry to zero raises the loss by at least the level; if zero does not raise it to the window, the entry is displaced to zero up to two parts in 10^8.", "quantifier": "all models, entries, thresholds and decreasing lists of levels within the stated reach", "why_tests_cant": "All inputs.", "anchors": ["esat/error/displacement.py:Displacement._increase_disp", "esat/error/displacement.py:Displacement._decrease_disp", "esat/error/displacement.py:Displacement._increase_disp_p", "esat/error/displacement.py:Displacement._decrease_disp_p", "esat/metrics.py:q_loss"]}
{"id": "C165", "title": "Soundness of the displacement interval", "statement": "Every value between the two displaced values of a level, put into the base profiles, raises the loss by at most the larger of the two recorded changes and the change due to EPSILON; hence the reported interval is contained in the interval obtained by refitting all other entries with the same level.", "quantifier": "all base models, stationary or not, all entries and levels", "why_tests_cant": "All inputs.", "anchors": ["esat/error/displacement.py:Displacement._increase_disp", "esat/error/displacement.py:Displacement._decrease_disp", "esat/error/displacement.py:Displacement._increase_disp_p", "esat/error/displacement.py:Displacement._decrease_disp_p", "esat/metrics.py:q_loss"]}
{"id": "C166", "title": "Mean columns of BS-DISP", "statement": "With the runs stored under 1 to B, in whatever order they finished, the mean columns of the compiled results count the run which finished first in addition to the runs 1 to B-1 and leave out run B; they equal the mean of all runs exactly in the rows where the first run and run B agree. The column profile keeps the values of the first run.", "quantifier": "all numbers of runs, orders of completion and results", "why_tests_cant": "All orders of completion.", "anchors": ["esat/error/bs_disp.py:BSDISP.__compile_results"]}
{"id": "C167", "title": "Units of an ls-nmf run", "statement": "Measuring samples and features in other units (data and uncertainties alike), scaling the factors of the starting point, and multiplying the uncertainties by s while dividing the tolerance by s squared leaves the course of an ls-nmf training run unchanged: same iterations, flags and reports, losses divided by s squared, factors in the new units, undefined exactly when they were.", "quantifier": "all data, uncertainties, nonzero unit changes, starting points and loop settings", "why_tests_cant": "All inputs and all units.", "anchors": ["esat/model/ls_nmf.py:LSNMF.update", "rust/lib.rs:ls_nmf_update_cpu", "esat/model/sa.py:SA.train"]}
{"id": "C168", "title": "Units of a ws-nmf run", "statement": "A change of the sample units leaves the course of a ws-nmf run unchanged. With a change of the feature units one update computes the same contributions, but the profiles as if EPSILON were multiplied by the unit factor of the feature: an entry agrees with the one of the old units exactly if the unit is unchanged, the entry is zero, or it does not change in that update.", "quantifier": "all data, uncertainties, positive unit changes, starting points and loop settings, and every inversion that is homogeneous", "why_tests_cant": "All inputs and all units.", "anchors": ["esat/model/ws_nmf.py:WSNMF.update", "rust/lib.rs:ws_nmf_update_cpu"]}
{"id": "C169", "title": "Units of the default starting point", "statement": "For data multiplied by t squared and the same random draws the default starting point of ls-nmf is t times the original in the entries whose draw is positive, and 1e-12 in both units in the others. Starting points which are t times the original give the same run with factors multiplied by t.", "quantifier": "all non-negative data, positive t, draws and loop settings", "why_tests_cant": "All inputs and all units.", "anchors": ["esat/model/sa.py:SA.initialize", "esat/model/sa.py:SA.train"]}
{"id": "C170", "title": "How often a row is drawn by the block bootstrap", "statement": "Averaged over all equally likely sequences of block starts, a row is drawn equally often before the last block and never in the last block without overlap; with overlap the mean number of draws of row j rises linearly over the first block, is constant, and falls to zero at the end.", "quantifier": "all numbers of rows, block sizes and rows", "why_tests_cant": "All sequences of draws.", "anchors": ["esat/error/bootstrap.py:Bootstrap._block_resample"]}
{"id": "C171", "title": "Percentile columns", "statement": "The percentiles of the tables are the linear interpolation at position p (N - 1) of the sorted values. They increase with p, stay within the range of the values, more than p (N - 1) values are at most the percentile and more than (1 - p)(N - 1) are at least the percentile. The median is the 50th percentile.", "quantifier": "all lists of values and all p in [0, 1]", "why_tests_cant": "All inputs.", "anchors": ["esat/error/bootstrap.py:Bootstrap._factor_statistics", "esat/data/datahandler.py:DataHandler._load_data"]}
{"id": "C172", "title": "Bootstrap statistics table", "statement": "Each row of the bootstrap statistics contains mean, sample variance and the 5th, 25th, 50th, 75th and 95th percentile of the runs rounded to four decimals; the table of losses contains the extremes and quartiles of Q rounded to whole numbers. The 5th, 25th, 50th, 75th and 95th percentile are in increasing order and the mean lies between the smallest and the largest run; the standard deviation is missing exactly for one run. If the base value is reported within the IQR, more than a quarter of N - 1 runs lie below the base value and above it, up to 6e-5. Because the runs are rounded to four decimals and the base value is not, a base value reproduced exactly by every run is reported within the IQR exactly if it is below 1e-5 or has four decimals.", "quantifier": "all non-negative base values and run values", "why_tests_cant": "All inputs.", "anchors": ["esat/error/bootstrap.py:Bootstrap.show_factor_results", "esat/error/bootstrap.py:Bootstrap._factor_statistics"]}
{"id": "C173", "title": "Metrics of the input data", "statement": "The minimum, quartiles, median and maximum of a column ignore missing values, are in increasing order, are attained at both ends, and are missing exactly if the whole column is missing; quartiles and median are the interpolated percentiles at 25, 50 and 75 percent.", "quantifier": "all columns with missing values", "why_tests_cant": "All inputs.", "anchors": ["esat/data/datahandler.py:DataHandler._load_data"]}
{"id": "C174", "title": "Perturbation statistics", "statement": "The multiplier statistics are the averages over the models of the percentiles at 1, 25, 50, 75 and 99 percent and are in increasing order. The table of perturbed profiles shows the second factor only (and raises if there is one factor): mean, population variance, minimum and maximum of the models, and the difference of mean and base in percent of their average, rounded to four decimals, within [-200, 200]; it is 0 if the mean is below 1e-6.", "quantifier": "all multipliers, non-negative profiles and numbers of models", "why_tests_cant": "All inputs.", "anchors": ["eval/perturbation.py:Perturbation.compare"]}
{"id": "C175", "title": "Aggregation for plots", "statement": "If a data set with more samples than max_plotting_n is aggregated, a column becomes the means of groups which partition its values, each group above the previous one: it is strictly increasing and the order in time is lost. If one value occurs c times among N with max_plotting_n (c - 1) >= 2 (N - 1), the aggregation raises. Model output is put into the same groups; values outside the range of the input are left out.", "quantifier": "all columns and all max_plotting_n of at least two", "why_tests_cant": "All inputs.", "anchors": ["esat/data/datahandler.py:DataHandler._aggregate_data", "esat/data/datahandler.py:DataHandler.aggregate_output"]}
{"id": "C176", "title": "Reading the data files", "statement": "A data handler is created from files exactly if both files exist, both names end in csv, txt, xls or xlsx in lower case, and the index column is found in both; its features are then the other columns of the input file. Position 0 counts as no index column. From a configuration file the index column is always a name, so that the default setting 0 raises unless a column is called 0. A missing file ends the program.", "quantifier": "all tables with distinct column names, all paths and index column arguments (positions from the left, names)", "why_tests_cant": "Names and endings are unbounded; tests always use index_col='Date'.", "anchors": ["esat/data/datahandler.py:DataHandler._read_data", "esat/data/datahandler.py:DataHandler._check_paths", "esat/cli/esat_cli.py:get_dh", "esat/configs.py:run_config"]}
{"id": "C177", "title": "Simulator commands", "statement": "In an absolute project directory and after any history of commands, run and estimate use the second generation of the synthetic data while the saved files have the first, and plot shows the comparison of the last compare, which is made with the first generation. In a relative directory nothing is saved: run still uses the second generation and plot never shows a comparison; if a pickle is present there, every command except generate raises.", "quantifier": "all generators, all histories of commands and unrelated file changes", "why_tests_cant": "Histories and generators are unbounded.", "anchors": ["esat/cli/esat_cli.py:get_sim", "esat/cli/esat_cli.py:run", "esat/cli/esat_cli.py:compare_sim", "esat/cli/esat_cli.py:plot_sim", "eval/simulator.py:Simulator.get_data"]}
{"id": "C178", "title": "Configuration of a constrained run", "statement": "For constraints on profiles or contributions, leaving out the index [-1,-1] has no effect because negative indices are rejected anyway; all stored constraints have non-negative indices. An expression is passed on exactly if it does not contain factor:-1, feature:-1 or sample:-1 (also -10 is excluded, -2 is not). The defaults add nothing. A limit of -1 iterations, a tolerance that is not positive and a window of -1 are taken from the batch.", "quantifier": "all configurations", "why_tests_cant": "Texts and lists are unbounded.", "anchors": ["esat/cli/esat_cli.py:run_constrained", "esat/configs.py:constrained_config"]}
{"id": "C179", "title": "Convergence with infinite losses", "statement": "With floating point losses the compiled loop stops at the first iteration with a full window at which either the earlier loss is finite and the rounded drop is below the tolerance, or the earlier loss is finite and the current one is infinite; it reports convergence exactly then. So an overflow of the loss counts as convergence, while losses that are infinite throughout never converge. The Python loop uses the same test, needs one more loss and stops at a NaN without convergence.", "quantifier": "all loss sequences without sign bit, all roundings, windows, tolerances and iteration limits", "why_tests_cant": "Infinite losses and all sequences.", "anchors": ["rust/lib.rs:ls_nmf_update_cpu", "rust/lib.rs:ws_nmf_update_cpu", "esat/model/sa.py:SA.train"]}
{"id": "C180", "title": "Convergence test in floating point", "statement": "For finite losses in a binary format: success of the test implies that the exact drop is below the tolerance; the test is exact if the earlier loss is at most twice the current one. If the distance of neighbouring numbers at the current loss is at least the tolerance, the test succeeds only if the loss did not drop at all.", "quantifier": "all binary formats, all losses and tolerances of the format", "why_tests_cant": "All floating point numbers.", "anchors": ["rust/lib.rs:ls_nmf_update_cpu", "rust/lib.rs:ws_nmf_update_cpu"]}
{"id": "C181", "title": "Process pools", "statement": "With default settings on a machine with at least one processor, every parallel method starts its pool exactly if there are two processors or more, except the displacement, which always starts; no default pool is larger than the number of processors. A positive number given to bootstrap or displacement is used as it is; the number given to BS-DISP changes no pool.", "quantifier": "all numbers of processors and all arguments", "why_tests_cant": "Machines with one processor.", "anchors": ["esat/error/bootstrap.py:Bootstrap.__init__", "esat/error/displacement.py:Displacement.__init__", "esat/error/bs_disp.py:BSDISP.__init__", "esat/error/bs_disp.py:BSDISP.run", "esat/estimator.py:FactorEstimator.run", "eval/perturbation.py", "eval/factor_comparison.py"]}
{"id": "C182", "title": "Bootstrap runs with and without workers", "statement": "If no run fails, the bootstrap with workers stores under each number the run that the bootstrap without workers stores there, in whatever order the workers finish, leaves other entries alone and leaves the generator in the same state; run i uses the i-th draw. Only the order of the entries differs, and the mapping table, the loss table and the statistics do not depend on it. If a run fails, nothing is stored with workers, and the runs before it are stored without them. A second call goes on with the next draws, and entries of the first call with numbers above the new bootstrap_n remain.", "quantifier": "all generators, resampling, training and mapping functions, all completion orders, all earlier results", "why_tests_cant": "All schedules and failures.", "anchors": ["esat/error/bootstrap.py:Bootstrap._train", "esat/error/bootstrap.py:Bootstrap._p_train", "esat/error/bootstrap.py:Bootstrap.run"]}
{"id": "C183", "title": "Comparison in the simulator", "statement": "After any sequence of compare calls the simulator holds the batch of the last call and the comparison of the last call without selected_model that could build one. The figures show, in order, the pairs of the mapping stored for the chosen model up to the first pair that cannot be drawn; for a finished comparison these pair every model factor with a synthetic factor of its own. Model number 0 means the best model. plot_profile_comparison raises for one factor and at the first profile with squared correlation 1. Profile bars add up to 100 per feature and contribution curves to 100 per factor; a change of scale of the factors leaves the curves alone, and the bars exactly if factors that share a feature have the same scale.", "quantifier": "all batches, comparisons, call sequences, mappings, matrices", "why_tests_cant": "All sequences of calls and all matrices.", "anchors": ["eval/simulator.py:Simulator.compare", "eval/simulator.py:Simulator.plot_comparison", "eval/simulator.py:Simulator.plot_profile_comparison"]}
{"id": "C184", "title": "Reading PMF5 output", "statement": "The profile file is split into profiles, percentages and percentages of the totals in this order, each with as many lines as there are features, with names from the last header line. If both files exist, load_pmf_output raises unless a factor in the contribution file is called species; it never returns a comparison object otherwise. The table WH stored for a model is the product of the model, for all products, exactly for at most one sample or one feature.", "quantifier": "all files, numbers of factors and features, all matrices", "why_tests_cant": "All files.", "anchors": ["eval/factor_comparison.py:FactorCompare.load_pmf_output", "eval/factor_comparison.py:FactorCompare._calculate_base_wh", "eval/factor_comparison.py:FactorCompare._parse_sa_output"]}
{"id": "C185", "title": "Perturbation runs and figures", "statement": "A run of n perturbations succeeds exactly if its pool starts and no perturbation fails; entry i of the results comes from the i-th draw; after a failure earlier results stay. The base model is trained at most once. Base bars add up to 100; the bars of the perturbed models do so for all positive contributions exactly if all factor mappings are permutations. The box labelled Factor i of the metric figure holds the metric of the factor that the mapping gives for i, which is factor i for all metrics exactly if the mappings are identities.", "quantifier": "all generators, models, numbers of perturbations, contribution matrices, mappings and metrics", "why_tests_cant": "All mappings and matrices.", "anchors": ["eval/perturbation.py:Perturbation.run", "eval/perturbation.py:Perturbation._parallel_perturb", "eval/perturbation.py:Perturbation.plot_norm_perturb_contributions", "eval/perturbation.py:Perturbation.plot_average_source_contributions", "eval/perturbation.py:Perturbation.plot_correlation_metrics"]}
{"id": "C186", "title": "Matrices in the factor catalog", "statement": "check_matrix returns an entry whose mean squared correlation with the matrix is positive, at most 1 and not below that of any other entry, together with this mean; it returns nothing exactly if no entry has a positive mean. Scales of the matrix and of the members do not matter, and the product of a factor is found with value 1 if there is an entry of multiples of it.", "quantifier": "all catalogs and matrices", "why_tests_cant": "All catalogs and matrices.", "anchors": ["eval/factor_catalog.py:Factor.check_matrix", "eval/factor_catalog.py:FactorCatalog.check_matrix"]}
{"id": "C187", "title": "Solution commands", "statement": "Of the ten solution commands only plot-residuals, plot-fingerprints, plot-gspace and plot-composition ever show a figure, for the chosen model (the best one for -1, negative numbers counted from the end) and with its number in the title; which commands end with an exception is given exactly. After processing the data every command shows its figures for indices in range, except plot-surface with -f.", "quantifier": "all projects, model numbers and options", "why_tests_cant": "All projects, batches with failed models, model numbers and options.", "anchors": ["cli/esat_cli.py:get_model_analysis", "cli/esat_cli.py:solution_factor_surface", "data/analysis.py:ModelAnalysis"]}
{"id": "C188", "title": "Residual histogram", "statement": "The table returned with the histogram contains exactly the scaled residuals of the feature whose absolute value exceeds the threshold, in the order of the samples. The number of listed residuals of all features times the squared threshold is at most Q(true), and with the threshold of the robust loss the listed residuals account exactly for Q(true) - Q(robust).", "quantifier": "all models, features and thresholds", "why_tests_cant": "All models and thresholds.", "anchors": ["data/analysis.py:ModelAnalysis.plot_residual_histogram"]}
{"id": "C189", "title": "Progress reports of a batch", "statement": "For every interleaving of the workers, the listener thread and the main process, the callback sees the reports of each model in the order they were made, none lost, duplicated or attributed to another model; if no call raises, all reports are delivered when training returns, so that the calls are those of the sequential mode in another order, and exactly the last call for each model is flagged completed. A call that raises is the last one: a callback that raises at its n-th call is called n times (if there are that many reports) and training returns nevertheless. An execution has at most two steps per report and three more and the main process is never blocked.", "quantifier": "all numbers of models, reports, callbacks and interleavings", "why_tests_cant": "Interleavings of processes and threads cannot be enumerated by running them.", "anchors": ["esat/model/batch_sa.py:BatchSA.train", "esat/model/batch_sa.py:_train_task", "esat/model/batch_sa.py:_progress_listener"]}
{"id": "C190", "title": "Conversion of the data to single precision", "statement": "The conversion keeps order and sign and does not change its results; exactly the numbers of magnitude at most 2^-150 become zero, exactly those from 2^128 - 2^103 on overflow, every other number moves by at most 2^-24 of itself (or 2^-150 below the normal range). The replacement of zeros in get_data has no effect: a zero reaches the model exactly if a row that is kept has a number of magnitude at most 2^-150 in a feature that is used, in the data and in the uncertainties, for all categories.", "quantifier": "all numbers, all tables, dropped and location columns and sequences of set_category calls", "why_tests_cant": "All floating point numbers.", "anchors": ["esat/data/datahandler.py:DataHandler._set_dataset", "esat/model/sa.py:SA.train"]}
{"id": "C191", "title": "Expressions and constraints together", "statement": "In an iteration with expressions, an entry that no expression and no constraint names is handed to the update unchanged (profiles by their absolute values); every entry named by an expression and by no constraint becomes (1 - s) c + s v with one factor s in [0, 1] common to all of them and v between 1e-8 and the sum of the current values of the elements of one of the expressions. A constraint on an entry overrides the expressions: the value handed over for it does not depend on them. If no element of the expressions is positive the iteration raises; in particular, with LS-NMF, the second iteration of a training in which every element of the expressions is also set to zero. The auxiliary loss used when the expression pull is scaled does not depend on the pull.", "quantifier": "all data, solutions, expressions and lists of constraints, any bounded least squares solver", "why_tests_cant": "All sizes, values, expressions and constraints.", "anchors": ["esat/rotational/constrained.py:ConstrainedModel._apply_expressions", "esat/rotational/constrained.py:ConstrainedModel._calculate_pull_matrices", "esat/rotational/constrained.py:ConstrainedModel.train"]}
{"id": "C192", "title": "Table and estimate of a factor estimation run", "statement": "The result of a run does not depend on the order in which the samples finish; it is an exception exactly if there is at most one number of factors, a factor number cannot be drawn or a training raises. The table has one row per number of factors with the means over its samples; Delta MSE is the test error of the row before minus its own (adding up to first minus last), Delta Ratio the Delta MSE of the row over that of the next one times 1.01 times the largest. The estimate is -1 exactly if the column K Estimate is all NaN, else the number of factors of the first row with its largest value, and is unchanged if all errors are multiplied by a positive number. The share of test values affects only the Train MSE column. If every model leaves a mean squared residual of at most 5e-6 the estimate is -1. The figure draws the estimate and a given nonzero number.", "quantifier": "all data, generators, numbers of samples and factors, completion orders", "why_tests_cant": "All schedules and values.", "anchors": ["esat/estimator.py:FactorEstimator.run", "esat/estimator.py:FactorEstimator._results", "esat/estimator.py:FactorEstimator.plot"]}
{"id": "C193", "title": "From the loaded tables to the trained model", "statement": "For tables without gaps and negative data in the columns in use, any categories, draws and history of calls, get_data succeeds with one row per row of the tables and one column per feature in use; a model of these arrays can be initialised, passes the validation, has positive profiles and, unless ws-nmf is asked for, positive contributions and LS-NMF in both loops; its data are the concentrations in single precision and its uncertainties those of the table in single precision, tripled for weak features, at least 1e-12. All trainings from a positive start are defined exactly if every row and every feature in use has a value above 2^-150; then the factors stay positive and the recorded Q(true) never increases. Otherwise every training with two updates of the profiles (a zero feature) or two updates (a zero row) gives NaN.", "quantifier": "all tables, categories, draws, histories, factor numbers, held and free updates", "why_tests_cant": "All tables and trainings.", "anchors": ["esat/data/datahandler.py:DataHandler.get_data", "esat/model/sa.py:SA.__init__", "esat/model/sa.py:SA.initialize", "esat/model/ls_nmf.py:LSNMF.update"]}
{"id": "C194", "title": "What the views of a batch show", "statement": "plot_loss draws exactly one curve per model that exists, named by its position counted from one, through all recorded losses in order; plot_loss_distribution shows one point of each loss per such model, named by its position counted from zero; details logs one line per such model and, exactly if the position of the best model leads to a model, a line for it, and raises otherwise unless there are no results. A best position of -2 (all losses NaN) reports the last but one model as number -1. The reported steps of a trained model are one less than the number of recorded losses; the curve of an LS-NMF model from a positive start never rises. The commands show the view exactly if the directory exists and the batch can be loaded.", "quantifier": "all batches with and without failed models, best positions, trainings, directories", "why_tests_cant": "All batches and histories.", "anchors": ["esat/data/analysis.py:BatchAnalysis.plot_loss", "esat/data/analysis.py:BatchAnalysis.plot_loss_distribution", "esat/model/batch_sa.py:BatchSA.details", "esat/cli/esat_cli.py:plot_loss"]}
{"id": "C195", "title": "What the configuration commands leave behind", "statement": "After any sequence of successful setup, simulator setup, setup-error and setup-constrained commands in one process, every configuration file is the one of the last command that wrote it, names its own directory, and all other files are untouched; a run configuration has the names of the synthetic data exactly if simulator setup ran before in the process (or wrote it), with separate processes only if simulator setup wrote it. The message, the usage error and success are characterised; get_config reads the file of the first flag set. With a configuration as written, the input commands succeed exactly if simulator setup came before and the current directory has both synthetic files, each with a column named 0.", "quantifier": "all command sequences, directories, file systems, processes", "why_tests_cant": "All histories.", "anchors": ["esat/cli/esat_cli.py:setup", "esat/cli/esat_cli.py:setup_sim", "esat/cli/esat_cli.py:setup_error", "esat/cli/esat_cli.py:setup_constrained", "esat/cli/esat_cli.py:get_config", "esat/configs.py:run_config"]}
{"id": "C196", "title": "The figures of a bootstrap do not depend on the order, except for the base markers", "statement": "For any sequence of calls of show_mapping_table, show_factor_results, plot_factor and plot_contribution (summary and plot_results are such sequences) on one bootstrap: each call gives a message exactly for a factor outside 1..k, raises before run (or for boxes without runs), and otherwise shows one point per run, whatever was called before. The only thing that changes are the profile entries of the base model below 1e-5, exactly for the factors whose results were shown; the base markers of plot_factor and plot_contribution are those of the changed profiles. The markers of a feature add up to 100 or are all missing, the latter exactly if every entry is zero or cut; an entry that is not cut gets a marker as high as before or higher, strictly if a positive one is cut.", "quantifier": "all call sequences, profiles, runs", "why_tests_cant": "All histories of calls.", "anchors": ["esat/error/bootstrap.py:Bootstrap.plot_factor", "esat/error/bootstrap.py:Bootstrap.plot_contribution", "esat/error/bootstrap.py:Bootstrap.summary", "esat/error/bootstrap.py:Bootstrap.show_mapping_table", "esat/error/bootstrap.py:Bootstrap._compile_results"]}
{"id": "C197", "title": "Names of constraints and the lists of constraints and expressions", "statement": "No two elements have the same label text, for any integers. For any history of add_constraint and remove_constraint with arbitrary texts the dictionary of texts is the one of the history of calls on elements (calls with other texts raise and change nothing); the listing has the announced number of lines, no label twice, and each listed label removes exactly its line; a text raises exactly if it is not listed. For any history of add_expression and remove_expression the listing is a part of the added expressions in order, numbered from zero; a listed number removes exactly that one, every other number is ignored.", "quantifier": "all integers, texts and histories of calls", "why_tests_cant": "All texts and histories.", "anchors": ["esat/rotational/constrained.py:ConstrainedModel.add_constraint", "esat/rotational/constrained.py:ConstrainedModel.remove_constraint", "esat/rotational/constrained.py:ConstrainedModel.list_constraints", "esat/rotational/constrained.py:ConstrainedModel.add_expression", "esat/rotational/constrained.py:ConstrainedModel.remove_expression"]}
{"id": "C198", "title": "Three-dimensional bars of factors and features", "statement": "The mesh of plot_all_factors_3d has eight points and twelve triangles for each pair of factor and feature; the points are exactly the corners of the box of half sizes 0.425 and 0.175 around the pair from zero to the height, with the colour and text of the pair; every triangle lies in a side of its own bar, each edge belongs to exactly two triangles, and bars of different pairs do not touch. The concentration height is a real number exactly if the summed concentration is above minus one, and recovers the sum unless it is zero; the percentages exist exactly if the profile entries of the feature do not sum to zero and then sum to 100.", "quantifier": "all numbers of factors and features, all heights, contributions and profiles", "why_tests_cant": "All sizes; the surface must be closed for every index.", "anchors": ["esat/data/analysis.py:ModelAnalysis.plot_all_factors_3d"]}
{"id": "C199", "title": "Fingerprints of the comparison with PMF", "statement": "The fingerprints are shown exactly if all three frames have the columns Factor 1 to Factor N (N one less than the number of columns of the PMF frame), a species column, and the first N entries of both mappings are such columns; otherwise the call raises before the first figure. Each figure has N bars stacked from the last factor of its order to the first, numbered by the factor, with the share of the column in the row of the feature; the bars stack up to 100 for every feature whose row does not sum to zero if the order has no factor twice.", "quantifier": "all frames, mappings and numbers", "why_tests_cant": "All frames and mappings.", "anchors": ["esat/data/test_tools.py:CompareAnalyzer.plot_fingerprints", "esat/data/test_tools.py:CompareAnalyzer.__init__"]}
{"id": "C200", "title": "A simulator object over several calls", "statement": "The time axis has one step for each sample exactly if there are no samples or the midnight before the second reading of the clock is not earlier than one day and one minute before the first reading, so whenever the clock does not run backwards; then the steps are a minute apart and end within the minute up to that midnight. Right after get_data the synthetic model has the current contributions and profiles, their product, positive data and uncertainties and their losses. No other call changes data, uncertainties or product; after update_contribution the model has the new contributions and the old product, which agree exactly if the update changed nothing. A custom array of profiles of the right shape is changed in place and shared with models made from it before; random profiles are a new array. Profiles are positive in every reachable state.", "quantifier": "all clock readings, sizes, draws, arrays and sequences of calls", "why_tests_cant": "All sequences of calls and sharing of arrays.", "anchors": ["eval/simulator.py:Simulator.generate_profiles", "eval/simulator.py:Simulator.update_contribution", "eval/simulator.py:Simulator._generate_dfs", "eval/simulator.py:Simulator._create_sa", "eval/simulator.py:Simulator.get_data", "eval/simulator.py:Simulator.__init__"]}
{"id": "C201", "title": "Base estimate of a comparison and figure of a perturbed factor", "statement": "The contributions of the base factors exist exactly if every label of the profiles is a label of the contributions, whatever the order and further labels; each label has the matrix of products of its contribution and profile, and the estimate of the data is the sum of these matrices. The figure of a perturbed factor is not shown without a comparison or from the number of factors on, raises for indices below minus the number of factors, and else shows for each feature and model the share of the mapped factor in its column, with the share of the base factor as marker; the markers of a feature sum to one, and boxes and markers agree for unperturbed models.", "quantifier": "all frames, models, mappings and indices", "why_tests_cant": "All frames and indices, negative ones included.", "anchors": ["eval/factor_comparison.py:FactorCompare._calculate_base_wh", "eval/perturbation.py:Perturbation.plot_perturbed_factor"]}
{"id": "C202", "title": "Runtime evaluations", "statement": "The key under which the runtime evaluation stores a result determines the data set and the number of factors; storing a result sets the runtime and the loss of its method and changes nothing else, and leaves the keys in order; after any sequence of runs the file holds for each data set, number of factors and method the values of the last such run; the figure has one trace for every data set and method with a stored runtime, with all its points ordered by the number of factors, each with the runtime of the last run of its kind; the clean up removes old results but never the old figure; the lines of the GPU benchmark show the distinct sizes in increasing order with the times of the first run of each size.", "quantifier": "all data set names, numbers of factors, methods, sequences of runs, stored results and lists of sizes", "why_tests_cant": "The scripts run for hours and their output is looked at by eye; no test executes them.", "anchors": ["eval/runtime_test.py:15-50", "eval/runtime_test.py:80-158", "eval/runtime_optimization.py:15-59"]}
{"id": "C203", "title": "Robust loss on the GPU", "statement": "For a positive alpha and positive uncertainties the formula of the robust loss on the GPU gives the square of each scaled residual below alpha and alpha times its absolute value from there on, and is the same number as the robust loss of the compiled CPU code; but the tensor with alpha has another shape than the residuals, so the computation raises an error for every data matrix, and since the last iteration always reports the robust loss, no training on the GPU with a positive max_iter ends well, whatever the iterations, the times of the reports and the convergence are.", "quantifier": "all data, uncertainties, factors and alpha over the reals; all tensor shapes, iteration steps, report times, convergence patterns and max_iter > 0", "why_tests_cant": "The GPU path needs CUDA hardware and is not part of any test; the failure is turned into a logged message and a False return value.", "anchors": ["rust/lib.rs:924-977", "rust/lib.rs:447-504", "rust/lib.rs:826-888"]}
{"id": "C204", "title": "Displacement as a whole, also repeated", "statement": "After any sequence of complete runs of one displacement object, sequential or parallel with the workers finishing in any order, the compiled table has one row for every level, factor and feature in this order; a requested feature has the percentages, the concentrations (at least the floor) and the lower loss change of its own two searches, any other feature its base values; the table is the same for all these sequences. After r runs every count is r times twice the number of requested features, and the swaps in a column are r times those of the factor that came in its place in the dictionaries of the first run.", "quantifier": "all base models, losses, retrainings, level lists, non-empty lists of distinct requested features, sequences of modes and completion orders", "why_tests_cant": "The completion order of the workers is not under the control of a test, and repeated runs of one object are never made in the tests.", "anchors": ["esat/error/displacement.py:100-117", "esat/error/displacement.py:334-350", "esat/error/displacement.py:489-506", "esat/error/displacement.py:563-627"]}
{"id": "C205", "title": "What robust_alpha can change", "statement": "The robust loss is the documented formula for a positive alpha, 0 for alpha = 0 and NaN for a negative alpha unless the factors reproduce the data; training in Python gives the same factors, losses, convergence and step count for all non-negative alphas, and ends after the first iteration for a negative one.", "quantifier": "all data, starting factors, parameters and values of alpha", "why_tests_cant": "Continuous parameter; the loss function is only called with the default in the tests.", "anchors": ["esat/metrics.py:qr_loss", "esat/model/sa.py:SA.train"]}
{"id": "C206", "title": "Training does not depend on the order of samples, features and factors", "statement": "Take any reordering of the samples, of the features and of the factors, and apply it to the data, the uncertainties and the starting factors. A whole training run then records the same losses in the same order, converges or not at the same iteration, shows the same progress reports and raises the same exceptions; its factor matrices are the reordered ones of the original run. This holds for the compiled ls-nmf run, for the compiled ws-nmf run with any matrix inverse that commutes with reordering (as the true inverse does), and for the Python ls-nmf run with the robust loss for any robust_alpha.", "quantifier": "all data, uncertainties, starting factors, permutations, loop settings, clocks and robust_alpha", "why_tests_cant": "A test reorders a few data sets and can only compare up to rounding; the statement covers every permutation and every iteration count, in exact arithmetic.", "anchors": ["esat/model/sa.py:SA.train", "rust/lib.rs:ls_nmf", "rust/lib.rs:ws_nmf"]}
{"id": "C207", "title": "What the catalog compares", "statement": "Without profile_only the catalog method emc compares the profiles only: its metric is the squared correlation of the two profiles if both mean contributions and both profile sums are not zero, and NaN otherwise. raae and corr compare the contributions only. With profile_only all methods compare the profiles in the same way. emc, corr and the profile comparison are symmetric and do not change when a factor is multiplied by a nonzero number; raae depends on which factor was cataloged first. Copies of a factor join one entry for emc and corr when the metric is defined and the threshold is at most one.", "quantifier": "all factors, thresholds, methods and numbers of copies", "why_tests_cant": "All factors and all numbers of copies.", "anchors": ["eval/factor_catalog.py:Factor.check", "eval/factor_catalog.py:FactorCatalog.add_factor"]}
{"id": "C208", "title": "The equations given to the solver by expressions", "statement": "For expressions in the documented form, the matrix given to the solver has one row per expression in their order and one column per different element; in the row of an expression an element has the signed coefficient of its first term in that expression and all other entries are zero, so that with each element named once the row applied to a vector is the value of the expression. The right hand side is the sum of the current values of the elements without the coefficients.", "quantifier": "all numbers of expressions, terms, coefficients, repeated elements, shapes, and current W and H", "why_tests_cant": "Tests of expressions only check that training runs; no test looks at the matrices given to the solver.", "anchors": ["esat/rotational/constrained.py:ConstrainedModel._apply_expressions", "esat/rotational/constrained.py:ConstrainedModel._map_expressions"]}
{"id": "C209", "title": "The block length follows the rule of Politis and White", "statement": "With M = ceil(sqrt n) + 5 lags, the bandwidth is twice the first lag at which it and the next four auto-correlations are below 2 sqrt(log10 n / n) in absolute value (at most M), or comes from one less than the last significant lag if there is no such run; the two lengths are (g^2 n / s^2)^(1/3) and (3/2 g^2 n / s^2)^(1/3) up to the bound ceil(min(3 sqrt n, n/3)), with the sums g and s over the lags written out. The length for the stationary bootstrap is never the larger one, both are NaN together, neither depends on the unit or the zero point of the values, and a series of at most ten values has none, so that the block size of the data handler is then a fifth of the number of features.", "quantifier": "all series, lengths below 10^36, changes of unit, collections of features", "why_tests_cant": "Tests check the block size of one dataset; the index arithmetic of lag matrices, thresholds and kernels needs all series.", "anchors": ["esat/model/recombinator.py:optimal_block_length", "esat/model/recombinator.py:mlag", "esat/model/recombinator.py:lam", "esat/data/datahandler.py:DataHandler._determine_optimal_block"]}
{"id": "C210", "title": "The start factors written out", "statement": "For data without NaN and means that are not negative, the default start of initialize has the profile entries sqrt(mean of the feature / factors) times their normal draws and the contributions sqrt(mean of the sample / factors) times theirs, entries that are not positive replaced by 1e-12 (contributions only with ls-nmf); with positive draws the product is the geometric mean of the two means times the mean of the products of the draws. The start 'update' of ls-nmf has the contributions V H^T with the profiles as drawn, before the replacement. With fewer profiles than factors the given ones are the first rows, and every column is divided by its sum, so that the entries of each feature sum to one over the factors.", "quantifier": "all data, shapes, draws, numbers of given profiles", "why_tests_cant": "Tests run one seed and check shapes; the formulas hold for every draw.", "anchors": ["esat/model/sa.py:SA.initialize"]}
{"id": "C211", "title": "The generated data written out", "statement": "Every cell of the synthetic data is the product of the factors times one plus or minus the drawn fraction, times the magnitude or its inverse for outliers, replaced by 1e-12 if not positive; the uncertainty is the cell times its draw, replaced by 1e-4 if not positive. Without outliers and with noise below the whole value the cell differs from the product by exactly that fraction, and without noise the true factors reproduce the data with loss zero.", "quantifier": "all factors, draws, outlier rates up to one and magnitudes other than zero", "why_tests_cant": "Random data: tests only check shapes.", "anchors": ["eval/simulator.py:Simulator._generate_data"]}
{"id": "C212", "title": "What the concentration/uncertainty figure shows", "statement": "plot_data_uncertainty raises exactly if there is no column to show, the number given without menu is no column, or the uncertainty lacks a label. Without menu a number selects the column it addresses; otherwise there is one trace per column, only the first visible if there is a menu, and choosing the j-th menu entry shows exactly column j with its title. The uncertainty is matched by label. The number given to the command plot-feature has no effect: the first column is shown for every number.", "quantifier": "all frames, labels, missing values, menu flags and numbers, also negative and out of range", "why_tests_cant": "a test looks at one figure with one index; the ignored index is visible only by comparing all indices", "anchors": ["esat/data/datahandler.py:DataHandler.plot_data_uncertainty", "esat/cli/esat_cli.py:plot_input_uncertainty"]}
{"id": "C213", "title": "What the feature/feature figure shows", "statement": "plot_feature_data answers with a message exactly if a number is not the number of a column (negative ones are rejected, x before y; the message names a bound that is itself rejected). Else the points are the rows in which both columns have a value, the curve Regression has the least-squares values (the mean if all x agree), the curve One-to-One the values x, and the axes start at 0 so that exactly the points with a negative coordinate are outside.", "quantifier": "all frames with missing values, all pairs of numbers, every minimiser returned by the solver", "why_tests_cant": "regression values are compared for generic data; constant columns, empty masks and negative data are rarely tried", "anchors": ["esat/data/datahandler.py:DataHandler.plot_feature_data", "esat/cli/esat_cli.py:plot_feature_data"]}
{"id": "C214", "title": "What the time series figure shows", "statement": "plot_feature_timeseries reduces a single number modulo the number of rows (not columns) and raises if the remainder is no column, so numbers of columns beyond the number of rows show another column and -1 raises when there are more rows than columns; lists and labels select what they address. The frequency is a day for all time stamps: the curve has one value per day between the first and the last day with a complete row, the mean over its complete rows or a gap; rows lacking a value in any column take no part. The command plot-timeseries raises for every number.", "quantifier": "all frames, time stamps, missing values and selections", "why_tests_cant": "needs data sets with fewer rows than columns, or incomplete rows, and the comparison with the daily mean", "anchors": ["esat/data/datahandler.py:DataHandler.plot_feature_timeseries", "esat/cli/esat_cli.py:plot_feature_timeseries", "esat/utils.py:min_timestep"]}
{"id": "C215", "title": "Correlation heat map and histogram colours", "statement": "The heat map of plot_feature_correlation_heatmap (Pearson) is symmetric, has entries between -1 and 1 or NaN, NaN exactly if one of the columns is constant on the rows in which both have a value, 1 on the diagonal otherwise, and does not change if columns are rescaled by positive factors and shifted. Histogram colours repeat exactly after ten features.", "quantifier": "all frames over the reals with missing values, all pairs of columns", "why_tests_cant": "symmetry, range and invariance are statements about all data", "anchors": ["esat/data/datahandler.py:DataHandler.plot_feature_correlation_heatmap", "esat/data/datahandler.py:DataHandler.plot_superimposed_histograms"]}
{"id": "C216", "title": "What the ridge line figure shows", "statement": "plot_ridgeline draws a curve for a feature exactly if two of the values that take part differ (with the logarithmic axis only positive values do); with the linear axis a feature with at most one value is left out, otherwise the whole call raises. The curve lies above its base line and runs over nbins increasing points from the smallest to the largest value; its height is the average of normal densities around the values that take part, with the variance of Scott's rule, a function with integral one; the base line of column j is j times the spacing, which by default is 1.5 for up to 9 features, 0.5 from 28 on and 14/n in between.", "quantifier": "all frames, axis kinds, numbers of bins and heights", "why_tests_cant": "one feature without two positive values makes the call raise, a case outside the test data", "anchors": ["esat/data/datahandler.py:DataHandler.plot_ridgeline"]}
{"id": "C217", "title": "The time axis of the figures of a solution", "statement": "plot_estimated_timeseries, plot_factor_profile and plot_factor_contributions resample with the result of min_timestep. For at least three rows they exist exactly if the smallest step of the sorted time stamps, the last step not counted, is one hour, and raise otherwise; then each curve has one point for every day from the first to the last, the mean of the rows of that day that have a value, and NaN if there is none. Without missing values the residual curve is the daily mean of the residuals; weighted with the rows per day, the contribution curve of a factor averages to 1 and the curves of plot_factor_contributions to 100/m although their title says avg=1.", "quantifier": "all time stamps, columns with missing values, contributions with a nonzero sum", "why_tests_cant": "the figures are only tried with one data set, where the step happens to work", "anchors": ["esat/data/analysis.py:ModelAnalysis.plot_estimated_timeseries", "esat/data/analysis.py:ModelAnalysis.plot_factor_profile", "esat/data/analysis.py:ModelAnalysis.plot_factor_contributions", "esat/utils.py:min_timestep"]}
{"id": "C218", "title": "The table of feature metrics", "statement": "features_metrics returns a table exactly if the estimate has at least as many columns as the data and there is one name per column. Row j has the name of feature j and, rounded to four decimals, mean and population variance of the data and of the estimate and the square root of m over 14 times the root mean square error.", "quantifier": "all data, estimates with the rows of the data and any number of columns", "why_tests_cant": "rounding, further columns and numbers of rows other than those of the example data", "anchors": ["esat/data/analysis.py:ModelAnalysis.features_metrics"]}
{"id": "C219", "title": "Labels and standard error of the residual statistics", "statement": "The Anderson column of calculate_statistics shows the largest significance level at which the test does not reject and No only if it rejects at every level, so a residual rejected at one level but not at a later one is not labelled No. The SE column is the square root of (m-1)/m times the standard error of the mean residual and does not change if all residuals are shifted.", "quantifier": "all statistics, all increasing critical values with decreasing levels, all residuals", "why_tests_cant": "the labels depend on where the statistic falls between the critical values", "anchors": ["esat/data/analysis.py:ModelAnalysis.calculate_statistics"]}
{"id": "C220", "title": "Panels of all factors", "statement": "plot_all_factors raises exactly without a selected model. Otherwise it draws, each in the row of its own number, the factors of factor_list, which counts from zero and whose other entries are ignored, or all factors without a list; bars are the column sums of the factor with zeros replaced, markers the percentages. There are legend entries exactly if the first factor is drawn.", "quantifier": "all factor matrices and lists", "why_tests_cant": "all lists, also with numbers that do not exist", "anchors": ["esat/data/analysis.py:ModelAnalysis.plot_all_factors"]}
{"id": "C221", "title": "Heights and labels of the surface plot", "statement": "plot_factor_surface draws exactly if a factor or a feature is given and all numbers given are in range. For a factor, heights below the threshold are left out and, for masses, exactly the features with a height at or above it are labelled; the percentages are fractions of the measured value compared with the same threshold, infinite for a positive mass where the data are zero. With a feature only, the threshold has no effect and all factors are labelled.", "quantifier": "all matrices, numbers and thresholds", "why_tests_cant": "zero data, masses at the threshold and numbers out of range", "anchors": ["esat/data/analysis.py:ModelAnalysis.plot_factor_surface"]}
{"id": "C222", "title": "Best match of each base factor", "statement": "calculate_correlation_matrix keeps for each base factor and metric the best value and its column. For the correlations the column is -1 and the value 0 exactly if no value is positive, otherwise they are the largest value and the first column that has it; for the relative error the column is -1 exactly if no value is a number, otherwise they are the smallest value and its first column. If base factor j and model factor c(j) are each other's unique best match, the column kept is c(j), while determine_map returns the inverse of c.", "quantifier": "all metric rows with NaN values, all permutations", "why_tests_cant": "ties, NaN and rows without a positive value", "anchors": ["eval/factor_comparison.py:FactorCompareV2.calculate_correlation_matrix", "eval/factor_comparison.py:FactorCompareV2.determine_map"]}
{"id": "C223", "title": "What ConstrainedModel.train stores", "statement": "Without constraints and expressions train changes nothing. Otherwise either an exception before the end of the loop leaves the object as it was, or the losses of all iterations, starting from the base solution, are stored as three lists; the contributions of the last iteration are stored unchanged, its profiles with entries <= 0 replaced by 1e-12, WH is the product of the stored matrices, the losses are those recorded in the last iteration, and converge_steps is the number of iterations minus one. converged is set exactly if the last converge_n sums of true and auxiliary loss lie within converge_delta after more than converge_n iterations, and training stops at the first such iteration or at max_iterations. The recorded losses belong to the profiles before the replacement and agree with the stored solution if all profile entries are positive. With max_iterations = 0 the call raises after a model without losses was stored.", "quantifier": "all matrices, all pull and update functions, all iteration limits", "why_tests_cant": "depends on every iteration of the loop and on exceptions in it", "anchors": ["esat/rotational/constrained.py:ConstrainedModel.train"]}
{"id": "C224", "title": "Accuracy of the ws-nmf update of the profiles", "statement": "The square root of a binary format is the multiple of the unit in the last place closest to the exact root. If the numbers of the exact update stay in the normal range, the computed ws-nmf update of a column of H is finite for contributions of any sign, and the square of each entry agrees with the square of the exact entry, h^2 (n1 + n2 + 1e-12) / (d1 + d2 + 1e-12), up to the factor (2^p/(2^p-1))^(6d+17) in a format with p bits, where d bounds the roundings per term of a sum, for every order of summation; the exact update is the one of the exact model.", "quantifier": "all formats with at least two bits (single and double precision included), sizes, evaluation orders, signs and inputs in range", "why_tests_cant": "All floating point inputs and summation orders.", "anchors": ["esat/model/ws_nmf.py:WSNMF.update", "rust/lib.rs:ws_nmf_update_cpu"]}
{"id": "C225", "title": "Accuracy of the loss in floating point arithmetic", "statement": "Evaluated in floating point arithmetic, in any order of summation and with or without fused multiply-add, the loss Q of finite data and factors of any sign differs from the exact sum of the squared weighted residuals by at most an explicit bound, as long as no intermediate magnitude with its error exceeds the largest exponent. Each weighted residual has an explicit absolute error, too; it is relative to the sum of the magnitudes of the products, not to the residual, because the subtraction cancels. In a binary format of p bits each rounding contributes 2^-p times the magnitude plus half the distance of the subnormal numbers. The test for the end of the training decides as it would with exact losses, up to the sum of these errors.", "quantifier": "all arithmetics whose rounding is accurate in this sense, all binary formats, all finite data, uncertainties different from zero, factors, numbers of factors and orders of evaluation", "why_tests_cant": "The error of one evaluation can be measured, but not that of every order of summation on every data set; the libraries choose the order by size, alignment and processor.", "anchors": ["rust/lib.rs:calculate_q_cpu", "esat/metrics.py:q_loss"]}
{"id": "C226", "title": "Accuracy of the robust loss in floating point arithmetic", "statement": "Evaluated in floating point arithmetic, in any order of summation, the robust loss of finite data differs from the exact Huber-type loss by at most an explicit bound, as long as no intermediate result overflows and alpha and the uncertainties are not close to the smallest normal number. This includes the decision, per entry, whether a scaled residual lies above alpha: a wrong decision next to alpha costs no more than the error of the residual. The chain of division, square root, product and division that reduces an entry gives alpha times the scaled residual up to nine roundings. The floor of the uncertainties in the Python version has no effect on this.", "quantifier": "all arithmetics with accurate rounding and square root, both versions of the function, all finite data, positive uncertainties and alpha, all orders of evaluation", "why_tests_cant": "Tests compare the robust loss with itself or with a rounded value; they do not reach the borders of the branches or every order of the sums.", "anchors": ["rust/lib.rs:calculate_q_robust_cpu", "rust/lib.rs:matrix_merge", "esat/metrics.py:qr_loss"]}
{"id": "C227", "title": "The figures of DISP and BS-DISP", "statement": "After any sequence of complete displacement runs, sequential or parallel in any order of the workers, both figures of every factor have one bar per feature, in order, for the requested dQ level (the default for anything else); the marker of the base run is within its bar, the percentages lie in the axis range 0 to 100, and the concentrations and their bars are at the floor or above (logarithmic axis), whatever the signs of the contributions; features that were not requested have bars of height zero; a number that is no factor gives no figure. The same containment holds for BS-DISP with its merged columns, for any number of bootstrap runs finished in any order; its profile markers are those of the run stored first.", "quantifier": "all models with positive profiles, loss responses, retraining outcomes, requested features, levels, schedules, numbers of runs", "why_tests_cant": "The bars come from searches on arbitrary losses and from merging any number of runs in any order.", "anchors": ["esat/error/displacement.py:Displacement.plot_results", "esat/error/displacement.py:Displacement.plot_profile", "esat/error/displacement.py:Displacement.plot_contribution", "esat/error/bs_disp.py:BSDISP.plot_profile", "esat/error/bs_disp.py:BSDISP.plot_contribution"]}
{"id": "C228", "title": "The loss of ls-nmf in floating point", "statement": "Let one ls-nmf update be evaluated in floating point arithmetic whose rounding is accurate up to a factor c, with sums in any order of at most d roundings per term, with the profiles held or not, on nonnegative finite data and factors whose exact intermediate results stay within the accurate range. Then the computed factors are nonnegative and finite, and the exact loss after the update is at most growth times the loss before plus leak times the loss of the zero model, where g = c^(15d+20), growth = g(2g-1), leak = 2g(g-1). Over N updates the loss is at most growth^N times the first loss plus leak times the loss of the zero model times 1 + growth + ... + growth^(N-1). The computed weights agree with 1/U^2 up to c^2, and the losses that training records exceed their predecessor by no more than these bounds and the rounding errors of the two losses (C225). In single precision, with e = (30d+40)/16777215 at most 1, growth is at most 1+3e+2e^2 and leak at most 2e(1+e).", "quantifier": "for all roundings, summation orders, sizes, data, weights, factors and numbers of updates within the stated ranges", "why_tests_cant": "C02 holds only in exact arithmetic and C146 shows an increase; a test sees a few trajectories on one platform, the bound covers every summation order and every start.", "anchors": ["esat/model/ls_nmf.py:LSNMF.update", "rust/lib.rs:ls_nmf", "esat/model/sa.py:SA.train"]}
{"id": "C229", "title": "Weights in single precision", "statement": "In single precision the weight 1/U^2 of an entry, after uncertainties below EPSILON are replaced, is NaN exactly for a NaN uncertainty; all uncertainties below EPSILON, also negative ones, get one and the same positive weight; every other weight is finite and not negative, agrees with 1/U^2 up to two roundings for uncertainties up to 2^62, and is zero exactly if the uncertainty is at least 2^64 or infinite, because the square overflows. Entries of weight zero have no influence on an ls-nmf update: data that differ only there give the same updates.", "quantifier": "for all single precision uncertainties, data, factors, summation orders", "why_tests_cant": "the overflow needs uncertainties above 1.8e19, which no test data have; the accuracy is a statement about all numbers of the format.", "anchors": ["esat/model/sa.py:SA.__init__", "esat/model/ls_nmf.py:LSNMF.update"]}
{"id": "C230", "title": "Conversion of the data and the loss", "statement": "SA keeps data and uncertainties in single precision. Let g = 2^-24, let every data value be zero or at least 2^-126 in magnitude (of either sign) and every uncertainty at least EPSILON. Then for any factors, of any number and sign, the loss on the kept data is at most (1+g)/(1-g)^2 times the sum of the loss on the data themselves and g times the sum of the squared signal to noise ratios, and the loss on the data is at most (1+g) times the sum of (1+g)^2 times the loss on the kept data and g times the sum of the squared signal to noise ratios. Hence factors that are optimal for the kept data up to a factor kappa, compared with factors of any other number, are optimal for the data up to kappa((1+g)^2/(1-g))^2 and an additive term of that size.", "quantifier": "for all data, uncertainties and factors within the stated ranges", "why_tests_cant": "a statement about all factors and about optimality; a test compares two numbers for one data set.", "anchors": ["esat/model/sa.py:SA.__init__", "esat/metrics.py:q_loss"]}
{"id": "C231", "title": "Callbacks of a batch and process pools", "statement": "The outcome of BatchSA.train does not depend on the progress callback, with one exception: a callable that pickle refuses (a lambda or a local function) makes every parallel run of one model or more return False. Such a run leaves results and best model as they were and, if the models could be set up, has drawn one seed per model, so that a later run trains other models. The same callback has no effect on a sequential run.", "quantifier": "all callbacks, numbers of models, training outcomes and completion orders", "why_tests_cant": "whether a callable can be pickled is invisible in the sequential mode; tests use module level functions.", "anchors": ["esat/model/batch_sa.py:BatchSA.__init__", "esat/model/batch_sa.py:BatchSA.train", "esat/model/batch_sa.py:_train_task"]}
{"id": "C232", "title": "Rows and columns of the figures of a solution", "statement": "plot_temporal_residuals with a data handler shows, under the name of processed feature number t, column number t of all columns: the two agree exactly if none of the columns up to t was removed (dropped, a location, bad). It raises exactly if the number is out of range, or if rows were dropped and neither curve has a single entry. plot_estimated_observed always pairs observation and estimate of the same feature and raises exactly if a row was dropped; plot_estimated_timeseries aligns by row names, dropped rows have no estimate. The scaled residuals of calculate_statistics are those of plot_residual_histogram, for weak features three times as large, and missing for dropped rows.", "quantifier": "all columns, removed columns, dropped rows, estimates and feature numbers", "why_tests_cant": "needs data sets with removed columns and dropped rows; the figures look plausible.", "anchors": ["esat/data/analysis.py:BatchAnalysis.plot_temporal_residuals", "esat/data/analysis.py:ModelAnalysis.plot_estimated_observed", "esat/data/analysis.py:ModelAnalysis.plot_estimated_timeseries", "esat/data/analysis.py:ModelAnalysis.calculate_statistics", "esat/data/analysis.py:ModelAnalysis.plot_residual_histogram"]}
{"id": "C233", "title": "The comparison of perturbed models completes", "statement": "Perturbation.compare with the relative error completes exactly if run has produced at least one model, there are at least two factors, their number is that of the base model, and for every model the first smallest entries of the columns of its matrix lie in different rows; if a matching is needed, it raises. A completed comparison stores these rows as the map, the rounded entries at row j and column map(j), and a table of the second factor with the profiles of the mapped factors. For copies of the base model it completes exactly if no two factors have the same contributions.", "quantifier": "all metrics, profiles, multipliers, matchings and numbers of models", "why_tests_cant": "the failing branch needs models in which two factors have the same best match.", "anchors": ["eval/perturbation.py:Perturbation.compare", "eval/factor_comparison.py:FactorCompareV2.determine_map"]}
{"id": "C234", "title": "Constrained results are out of reach of the command line", "statement": "In every session of commands (setup, simulator, run, run-error, run-constrained in any order and number, with any results of the computations) and of changes made to the files (writing texts, deleting, copying), starting without a pickled constrained model, no file ever holds one: run-constrained pickles the SA solution. Hence every command of analysis-constrained ends with an exception, and run-error with a constrained configuration ends with an exception and writes no file. The views work exactly for a file that unpickles to a constrained model; after a completed run-constrained the file they read unpickles to an SA object. The error views do nothing without all three flags and otherwise need an object with the method in the file of the displacement.", "quantifier": "all sessions, platforms, directories and project names", "why_tests_cant": "a test runs one order of commands; the claim is about all of them.", "anchors": ["esat/cli/esat_cli.py:get_constrained_model", "esat/cli/esat_cli.py:run_constrained", "esat/cli/esat_cli.py:run_error", "esat/rotational/constrained.py:ConstrainedModel.save"]}
{"id": "C235", "title": "Report of the memory estimate", "statement": "The estimate is given in gigabytes exactly if it exceeds 2^30 bytes and in megabytes otherwise, correct to 0.00005 units; the text for the available memory always says gigabytes, but its number is the number of gigabytes only if the estimate exceeds 2^30 bytes and 1024 times that number otherwise; the entry named in bytes holds gigabytes; and with at least one core the warning is logged exactly if no process is recommended.", "quantifier": "all sizes, memory and core counts", "why_tests_cant": "The size of the test machine and data fixes the unit; no test reads the text.", "anchors": ["esat/utils.py:memory_estimate"]}
{"id": "C236", "title": "Highlighted elements of the constrained profile", "statement": "The profile figure of a constrained model never marks an element: whichever constraints and expressions have been added, a figure that is shown has the same numbers and edges as without them. The list of colours computed for it marks exactly the elements of this factor named in expressions and, for the documented constraint types, no constrained element. The figure raises exactly for a factor that does not exist, an expression naming a missing feature of the factor, or a constraint whose type is the text feature at such an index; so never after a training that could read all elements of the expressions.", "quantifier": "all models, constraints and expressions", "why_tests_cant": "Figures are not compared by tests.", "anchors": ["esat/rotational/constrained.py:ConstrainedModel.plot_profile"]}
{"id": "C237", "title": "The example program as a whole", "statement": "esat/main.py: with at least two simulated factors, uniform draws that are zero or at least 2^-53 and relative noise of at most one half, generate_data gives tables cell by cell as specified (twice the uniform draws times the profiles, noise, outliers of rate 10 % and magnitude 1.25), all values above 2^-150; load_dataframe and get_data give the tables rounded to single precision, one row per sample and one column per feature; the parallel batch of workflow succeeds for 1 to 127 models in any order of completion, leaves one result per model, each with positive factors, WH their product, Q(true) and Q(robust) of these factors, Q(true) not larger than at its start values drawn with its own seed, reached from them by at most 20000 multiplicative updates of both factors ending with the first at which Q(true) is less than 0.1 below its value 24 updates before, and best_model is the first model with the smallest Q(robust). With more than 127 models the batch fails.", "quantifier": "All draws, sizes, numbers of factors, model counts, seeds, orders of completion, clocks.", "why_tests_cant": "The program takes long and draws at random; a run shows one outcome and the default of 20 models never reaches the limit of 127.", "anchors": ["esat/main.py:generate_data", "esat/main.py:workflow", "esat/main.py:run_all", "esat/model/batch_sa.py:BatchSA.train"]}
{"id": "C238", "title": "Training with fixed profiles finds the best contributions", "statement": "With hold_h and no delay, from data without negative values or empty rows, positive profiles and a positive start, ls-nmf leaves the profiles unchanged and after t iterations its loss exceeds that of any other non-negative contributions by at most a constant divided by t; the smallest loss over all non-negative contributions is attained, and loss and modelled values tend to those of the best contributions, whatever the start. ws-nmf has the least squares contributions from the first iteration on, whatever the start; all its losses are equal, it converges at iteration converge_n, and no contributions, negative ones included, have a smaller loss if the inverses are right.", "quantifier": "All data, uncertainties, profiles, starts, settings and numbers of iterations.", "why_tests_cant": "A statement about the limit of the iteration and about all competing contributions; a test sees finitely many iterations and competitors.", "anchors": ["esat/model/ls_nmf.py:LSNMF.update", "esat/model/ws_nmf.py:WSNMF.update", "esat/model/sa.py:SA.train", "rust/lib.rs:ls_nmf", "rust/lib.rs:ws_nmf"]}
{"id": "C239", "title": "What convergence of an ls-nmf run guarantees", "statement": "From non-negative data without empty rows or columns, non-zero uncertainties and a positive start, every ls-nmf update lowers Q by at least the squared change, in units of the uncertainties, of the amounts every factor explains in every cell, and by at least the scaled square of the derivatives of Q. Hence in a run that stops as converged the factors moved by less than converge_delta in the last converge_n - 1 iterations together, the violations of the optimality conditions there add up to less than converge_delta, and over any number of iterations both add up to at most the starting Q.", "quantifier": "all data, uncertainties and positive starts of any shape, all settings of the loop (hold_h, delay_h, converge_n, converge_delta, max_iter)", "why_tests_cant": "Q values of a test run show only that Q changed little, not that the factors did; no finite number of runs bounds the movement for all data.", "anchors": ["rust/lib.rs:ls_nmf", "esat/model/ls_nmf.py:LSNMF.update", "esat/model/sa.py:SA.train"]}
{"id": "C240", "title": "Samples, features and factors without any signal", "statement": "From positive factors and weights and non-negative data, ls-nmf divides by no zero, however long it runs, exactly if no sample and no feature consists of zeros only. In IEEE arithmetic, with any rounding and order of summation and whatever the other numbers are: with an all-zero sample its contributions are NaN from the second update on, with an all-zero feature all contributions; with a factor whose contributions (profiles updated) or whose profile are all zero, contributions are NaN after one update. From then on the loss is NaN and the convergence test is never met.", "quantifier": "all data, weights, factors of any shape including infinite and NaN entries, all roundings, orders of summation, sequences of held and updated profiles", "why_tests_cant": "the outcome depends on 0/0 and on how NaN spreads through matrix products, which no test data of the project contain.", "anchors": ["esat/model/ls_nmf.py:LSNMF.update", "rust/lib.rs:ls_nmf_update_cpu", "rust/lib.rs:calculate_q_cpu"]}
{"id": "C241", "title": "Which value a pull to a value returns", "statement": "A target whose change of Q is not below the limit is replaced by the first of 31 bisection points between current value and target at which the search may end (change within the band of one hundred below the limit, next point within the tolerance, or the last evaluation); the half above the middle is kept where the change exceeds the limit. The value is then in the band, or in a bracket no wider than four tolerances or the thirtieth halving at whose ends the limit is crossed (or which are the ends of the range). For limits up to one hundred the band has no lower end and the value is the first of hi - (hi - lo)/2, hi - (hi - lo)/4, ... that respects the limit, not the largest pull allowed.", "quantifier": "all responses of Q to the value, all limits, tolerances, current values and targets", "why_tests_cant": "the returned value depends on the whole course of the bisection; tests of single pulls do not show which value is found in general.", "anchors": ["esat/rotational/constrained.py:ConstrainedModel._pull_to_value"]}
{"id": "C242", "title": "By which factor a pull down or pull up changes an element", "statement": "With an allowed change of Q of at most 100 (the width of the search band), _pull_down_value multiplies a non-zero element by the first of the products 1/2, 1/2*3/4, 1/2*3/4*7/8, ... whose change of Q respects the limit, or by the product of 26 factors if none does. If larger pulls change Q more, the element is therefore halved when that respects the limit and otherwise multiplied by a constant between 0.2887 and 0.2889 whatever the limit, which exceeds the limit. Whatever the data, a pull down constraint on a positive profile element requests a decrease between 50 % and 71.13 %. _pull_up_value leaves an element unchanged when doubling it is not below the limit; otherwise, with 2^j the first power of two not below the limit, it multiplies by the first of 2^(j-1)(1+1/2), 2^(j-1)(1+1/4), ... that respects the limit (or the thirtieth), and by 2^30 when j is 30.", "quantifier": "For all non-negative responses of Q to the element, all limits up to the band width, all non-zero elements and tolerances between 2^-27 and 2^-26 (1e-8); the requested change for all data, uncertainties, factor matrices and constraints on a positive element.", "why_tests_cant": "The search runs up to 26 or 60 evaluations of Q whose outcome depends on the whole response; tests see single responses and not that every limit below the cost of halving gives the same, larger pull.", "anchors": ["esat/rotational/constrained.py:ConstrainedModel._pull_down_value", "esat/rotational/constrained.py:ConstrainedModel._pull_up_value", "esat/rotational/constrained.py:ConstrainedModel._apply_constraints"]}
{"id": "C243", "title": "Starting factors that are multiples of each other", "statement": "An ls-nmf run whose starting factors are multiples of the factors of a smaller model, the multiples of each factor adding up to it, takes the course of the run of the smaller model: same losses, convergence, last iteration and progress reports, and factors that are the same multiples of those of the smaller run. Two starting factors that are multiples of each other in contributions and profiles remain so in every run, so a start with equal factors never uses more than one of them.", "quantifier": "all data, uncertainties, starting factors, assignments of factors to factors of the smaller model, non-zero multiples, loop parameters and clocks", "why_tests_cant": "the identity concerns every iteration of every run; tests of single runs show similar factors but not that they can never separate.", "anchors": ["rust/lib.rs:ls_nmf_update_cpu", "esat/model/ls_nmf.py:LSNMF.update", "esat/model/sa.py:SA.train"]}
{"id": "C244", "title": "Repeated samples are samples with smaller uncertainty", "statement": "A training run on data with repeated samples takes the course of the run on the distinct samples with the uncertainties of each sample divided by the square root of the number of its occurrences: same losses, convergence and profiles, and every copy has the contributions of its sample. For ls-nmf the copies must start with equal contributions; for ws-nmf (with any homogeneous inverse) it holds for all starting contributions, so a bootstrap run depends on the drawn samples through the numbers of draws only. Both hold for the compiled and the Python loop.", "quantifier": "all data, uncertainties, lists of drawn samples, starting factors, loop parameters and clocks", "why_tests_cant": "a statement about all resampled data sets and whole runs on them.", "anchors": ["rust/lib.rs:ls_nmf_update_cpu", "rust/lib.rs:ws_nmf_update_cpu", "esat/error/bootstrap.py:Bootstrap._resample", "esat/error/bootstrap.py:Bootstrap._block_resample"]}
{"id": "C245", "title": "The allowed change of Q holds for one iteration", "statement": "If in each of T iterations of a constrained ls-nmf training the pulls together raise Q by at most a limit, Q is raised by at most T times the limit overall. It is not bounded by the limit itself: there are data reproduced exactly by two factors and a pull down constraint with the limit 5 such that the pull of each of three iterations changes Q by at most 5, while Q is above 6 after the third.", "quantifier": "the bound for all data, constraints, expressions, solvers, numbers of iterations and limits; the second part is an existence statement", "why_tests_cant": "the limit is checked inside every iteration; whether it holds for the whole training is a statement about all runs.", "anchors": ["esat/rotational/constrained.py:ConstrainedModel.train", "esat/rotational/constrained.py:ConstrainedModel._calculate_pull_matrices", "esat/rotational/constrained.py:ConstrainedModel._pull_down_value"]}
{"id": "C246", "title": "An ls-nmf update is at least as good as any rescaling of the factors it starts from, and so never worse than the empty model", "statement": "For non-negative data and factors, after an ls-nmf update the weighted loss of every sample is at most the loss it would have with its old contributions multiplied by any number; after the profile step alone the same holds for every feature and its old profile values. In particular, with the number 0, one update brings every sample and the whole data set to a Q of at most the sum of (V/U)², however bad the start, and every Q recorded by a training from a proper start lies between 0 and that value. Behind it is an identity: the new model of a sample has the same weighted product with the model of its old contributions as the data have. For factors which the update leaves unchanged it says that the weighted sum of squares of the data of every sample is that of the model plus the loss; with profiles that are updated, also for every feature.", "quantifier": "for all matrix sizes, data, uncertainties, non-negative factors, hold flags and multipliers, and for all training configurations", "why_tests_cant": "Tests compare Q before and after a few updates. The comparison with all rescalings and the exact decomposition at unchanged factors need an argument about the update formula.", "anchors": ["esat/model/ls_nmf.py:LSNMF.update", "rust/lib.rs:ls_nmf_update_cpu", "esat/metrics.py:q_loss"]}
{"id": "C247", "title": "Constraints without effect: contributions under ws-nmf, profiles of a single factor under ls-nmf", "statement": "train moves the factors towards the constraints and then calls the update. The ws-nmf update replaces the contributions before it reads them, so for a ws-nmf model an iteration with constraints has the outcome of the iteration with the constraints on profiles only; a training with constraints and expressions on contributions only that completes stores the result of as many plain updates of the base model as it made iterations. The ls-nmf update of a model with one factor has the same outcome for all profiles without a zero and no finite outcome for the others, so without expressions an iteration with constraints on the profile has the outcome of the one without them, or none if one of them moves an entry to zero.", "quantifier": "for all data, factors, constraints of any kind, solvers, inverses and training settings", "why_tests_cant": "The effect of a constraint is tested for one model of ls-nmf with several factors, if at all. That a constraint has no effect for any target is not visible from runs.", "anchors": ["esat/rotational/constrained.py:ConstrainedModel.train", "esat/model/ws_nmf.py:WSNMF.update", "esat/model/ls_nmf.py:LSNMF.update"]}
{"id": "C248", "title": "On what the result of a training depends", "statement": "A ws-nmf run of at least one iteration, of the compiled or the Python loop, is the same for all starting contributions. A compiled ls-nmf run with one factor whose profiles are not held is the same for all starting profiles without a zero; multiplying the starting contributions by a number other than zero leaves losses, convergence and reports unchanged, multiplies the contributions by the number and divides the profile by it. With held profiles the samples are trained independently: updates on a selection of the samples, in any order and with repetitions, give the selected samples the contributions that the updates on all samples give them, for ls-nmf as long as the updates on all samples complete and for ws-nmf always.", "quantifier": "for all sizes, data, uncertainties, starts, training settings, numbers of iterations and selections of samples", "why_tests_cant": "Tests run from a few seeds. That two runs agree for every start, or sample by sample for every selection, cannot be seen from examples.", "anchors": ["rust/lib.rs:ls_nmf_update_cpu", "rust/lib.rs:ws_nmf_update_cpu", "esat/model/sa.py:SA.train"]}
{"id": "C249", "title": "Model numbers in the error estimates", "statement": "The compiled code takes the number of a model as a signed byte. With it, a parallel displacement (the default) numbers its tasks factor times number of requested features plus feature plus one; it is the run of C204 if the largest number is at most 127, and otherwise raises and leaves the object as it was, whatever the order of the workers. With all features the numbers are those from one to factors times features, so a new object returns exactly if factors times features is at most 127, and the same holds for the displacement stage of BS-DISP with default settings. The sequential displacement uses the batch number for all its trainings. A bootstrap of more than 127 runs raises: with workers nothing is stored, without them the first 127 runs are. Without the compiled code the numbers change nothing.", "quantifier": "all displacement data, level lists, requested features, batch numbers, completion orders, resampling and training functions and numbers of runs", "why_tests_cant": "Tests use data sets with few features and few bootstrap runs.", "anchors": ["esat/error/displacement.py:Displacement._increase_disp_p", "esat/error/displacement.py:Displacement._decrease_disp_p", "esat/error/displacement.py:Displacement.run", "esat/error/bs_disp.py:BSDISP.run", "esat/error/bootstrap.py:Bootstrap._train", "esat/model/sa.py:SA.train", "rust/lib.rs:ls_nmf", "rust/lib.rs:ws_nmf"]}
{"id": "C250", "title": "The pseudo-inverse of the compiled code", "statement": "The branch of calculate_inverse for a vanishing determinant never returns a matrix: qr_decomposition fails for every matrix with at least one column (slice_set of a scalar into a matrix), and whatever decomposition returning matrices replaces it, the singular values are then kept as a matrix where to_vec1 needs a vector. Hence calculate_inverse returns exactly for the square matrices of non-zero determinant, and only if to_scalar accepts vectors with one element; a singular matrix is an error and never gets a pseudo-inverse.", "quantifier": "all sizes, all matrices over a field, both behaviours of to_scalar, all replacements of the decomposition", "why_tests_cant": "calculate_inverse is not called by any other function, needs a candle device, and singular matrices do not occur in the tests", "anchors": ["rust/lib.rs:calculate_inverse", "rust/lib.rs:calculate_svd", "rust/lib.rs:qr_decomposition", "rust/lib.rs:create_diagonal"]}
{"id": "C251", "title": "Whole runs of the Python loop", "statement": "What is proved about whole ls-nmf runs of the compiled loop also holds for the loop written in Python (converge_n at least 1, robust_alpha such that the robust loss is a number): the recorded losses never increase and never exceed the loss of the empty model, a run with a tolerance that is not positive never converges, a converged run has more than converge_n iterations and moved by less than the tolerance in its last converge_n - 1 of them, held profiles give the best contributions up to a constant divided by the number of iterations, and copies of factors, proportional factors, repeated samples and a single factor have the effects described in C243, C244 and C248.", "quantifier": "all data, uncertainties, starting factors, settings and robust_alpha", "why_tests_cant": "runs with particular data cannot cover all starting points and settings", "anchors": ["esat/model/sa.py:SA.train", "esat/model/ls_nmf.py:LSNMF.update"]}
{"id": "C252", "title": "The course of a ws-nmf run", "statement": "If the contributions recomputed by ws-nmf are not negative and the inverses are right, an update lowers the loss by at least the amount by which it moves the factors, and the result is at least as good as any contributions, so also no contributions, with the old profiles. A whole compiled run of this kind on non-negative data therefore has losses that never increase and never exceed the sum of (V/U)². It is never reported as converged with a tolerance that is not positive. With a positive converge_delta it converges within (converge_n - 1)·p + 1 iterations if p times converge_delta exceeds the sum of (V/U)², however bad the start (the same bound holds for ls-nmf). The factors move in total by at most the starting loss, and a converged run moved by less than converge_delta in its last converge_n - 1 iterations. With one factor, non-negative data and a positive starting profile every run is of this kind. Runs of the Python loop (converge_n at least 1) have the same properties except that convergence takes at least converge_n + 1 iterations and may take one more, (converge_n - 1)·p + 2.", "quantifier": "all data, uncertainties, starting factors, settings and inverse routines that return inverses of the matrices met in the run", "why_tests_cant": "runs with particular data cannot cover all starts, settings and numbers of iterations", "anchors": ["rust/lib.rs:ws_nmf_update_cpu", "esat/model/ws_nmf.py:WSNMF.update", "esat/model/sa.py:SA.train"]}
{"id": "C253", "title": "What the profile step of ws-nmf minimises", "statement": "On non-negative data, from positive profiles and with contributions of any sign, the profile step of ws-nmf never increases the loss of the model made of the positive parts of the contributions minus the loss of the model made of their negative parts, and lowers it unless no profile changes; this holds in every iteration of a compiled run, whatever the inverse routine returns. This difference is the loss itself, less a constant, plus twice the weighted product of the model of the negative parts with the whole model, so the loss can rise by at most twice the fall of that product. It does rise: an exact factorisation of positive data with a negative contribution is left by the update.", "quantifier": "all data, uncertainties, contributions, profiles, settings and inverse routines", "why_tests_cant": "the quantity that falls is not computed by the code, and the rise of the loss depends on the sign of the contributions", "anchors": ["rust/lib.rs:ws_nmf_update_cpu", "esat/model/ws_nmf.py:WSNMF.update"]}
{"id": "C254", "title": "The table of the factor catalog", "statement": "The table of a catalog filled by any calls has one row for each entry; the counts are positive and add up to the number of factors added; the percentages are rounded to two digits and descending; the mean correlation of a row keeps every bound with four digits that the threshold and the number of a first member keep. With at most 10000 models the counts are descending and equal percentages mean equal counts; with more models this can fail. The table and the summary raise exactly if factors were added and all of them have model number zero.", "quantifier": "all methods, thresholds, metrics and sequences of added factors", "why_tests_cant": "Rounding makes different counts equal only for many models, and the division by zero depends on the numbers of all models added.", "anchors": ["eval/factor_catalog.py:FactorCatalog.to_df", "eval/factor_catalog.py:FactorCatalog.summary", "eval/factor_catalog.py:Factor.add"]}
{"id": "C255", "title": "ls-nmf in the long run satisfies the equations of a best solution", "statement": "For every non-negative data matrix without an empty row or column, all non-zero uncertainties and every positive start, consider ls-nmf without hold_h in exact arithmetic. Call the balance of factor a in feature j the sum over the samples of W[i,a]*H[a,j]*(model - data)/u^2, and the balance of factor a in sample i the same sum over the features; both vanish at every minimiser of Q, since they are its derivatives times the entry. (1) One update decreases Q by at least the square of each balance of the profiles (and of each balance of the contributions against the new profiles) divided by twice the sum of Q and of Q of the empty model. (2) As the number of updates grows every balance tends to zero, the amounts W[i,a]*H[a,j] change less and less, Q converges, the amounts have limit points, and at every limit point all balances vanish and Q is the limit. (3) For every accuracy there is a number of iterations such that every run of at least that length, compiled or in Python, whatever max_iter, converge_delta, converge_n or clock, returns factors with all balances below the accuracy. (4) The same holds with hold_h and a positive delay_h, the number of iterations then depending on the delay. (5) This is less than optimality: there are data and a positive start which every run returns unchanged, with all balances zero and Q = 1, although factors of the same size with Q = 0 exist.", "quantifier": "all sizes, all data, uncertainties and starts as stated, all loop settings, all accuracies", "why_tests_cant": "A limit statement about unboundedly long runs; tests run finitely many iterations on few data sets.", "anchors": ["esat/model/ls_nmf.py:LSNMF.update", "rust/lib.rs:ls_nmf_update_cpu", "rust/lib.rs:ls_nmf_cpu", "esat/model/sa.py:SA.train"]}
{"id": "C256", "title": "ws-nmf in the long run with non-negative contributions", "statement": "For ws-nmf without hold_h on non-negative data with non-zero uncertainties from positive profiles, in a run whose matrices to be inverted are inverted correctly and whose recomputed contributions are non-negative (always so with one factor), the balances of C255 behave as follows. (1) In every update the new contributions solve their equations exactly against the old profiles, so the balances of the contributions are zero there; the square of each balance of the profiles is at most (2 x + y + 3e-12 H[a,j]) times the decrease of Q, where x and y are the two sums whose difference the balance is. (2) As the number of updates grows every balance of the contributions tends to zero; for every accuracy there are infinitely many updates after which all balances are below it; and if the profiles stay bounded, every balance of the profiles tends to zero. (3) For every accuracy there are arbitrarily large max_iter with which the compiled loop with converge_delta <= 0 returns such factors, and likewise for the Python loop with converge_n at least 1. The constant 1e-12 added to numerator and denominator is what makes the bound depend on the size of the profiles, which can grow at most linearly in the number of updates.", "quantifier": "all sizes, data, uncertainties and starts as stated, all correct inverses, all accuracies", "why_tests_cant": "A limit statement about unboundedly long runs with a constant of 1e-12 in the update; tests cannot separate it from zero.", "anchors": ["esat/model/ws_nmf.py:WSNMF.update", "rust/lib.rs:ws_nmf_cpu"]}
{"id": "C257", "title": "Small changes of the data change the result of a training little, unless the stopping test is met exactly", "statement": "Let data, uncertainties and starting factors of ls-nmf approach (in any way) data without negative entries and without an empty row or column, non-zero uncertainties and positive factors; exact arithmetic, same settings. (1) After every fixed number of updates, with or without the profiles held, the factors exist from some point on and approach those of the limit. (2) If in the run of the limit no difference of losses that the stopping test compares with converge_delta equals it, then from some point on every compiled run makes the same number of iterations, stops for the same reason, and its factors and losses approach those of the limit; the same holds for the Python loop with its own test, whatever robust_alpha. A negative converge_delta always meets the condition. (3) The condition is needed: there are data, a positive start and settings whose run makes three iterations, while with data and contributions multiplied by any factor c < 1, however close to 1, it stops after two and returns c times contributions that differ from those of three iterations by a fixed amount.", "quantifier": "all sizes, all nets of data, uncertainties and starts as stated, all loop settings; (3): all factors below one", "why_tests_cant": "A statement about all sufficiently small changes; finitely many perturbed runs neither show continuity nor hit the exact tie.", "anchors": ["esat/model/ls_nmf.py:LSNMF.update", "rust/lib.rs:ls_nmf_update_cpu", "rust/lib.rs:ls_nmf_cpu", "esat/model/sa.py:SA.train"]}
{"id": "C258", "title": "Whole ls-nmf runs in floating point", "statement": "Let ls-nmf updates be evaluated in floating point arithmetic whose rounding is accurate up to a factor c, with sums in any order of at most d roundings per term, the profiles held or not in each update, from exactly given non-negative data, weights and factors. (1) As long as the numbers of the exact run stay within the accurate range, all computed factors are finite and non-negative, and after t updates every entry agrees with that of the exact run from the same start up to the factor c^R, R = (15d+20)(14^t-1)/13. (2) For data without an empty row or column, positive weights and factors, every number of updates, every d and every accuracy there are a number of bits and an exponent range such that in every binary format with at least these the computed factors of all these updates agree with the exact ones to the relative accuracy.", "quantifier": "all sizes, data, weights, starts, hold patterns, orders of summation, formats as stated", "why_tests_cant": "Concerns all data, all orders of summation and all formats; a test compares a few runs in one format.", "anchors": ["rust/lib.rs:ls_nmf_update_cpu", "esat/model/ls_nmf.py:LSNMF.update"]}
{"id": "C259", "title": "Features that are multiples of each other", "statement": "A compiled ls-nmf run on data in which features are multiples of others (values d_t times and uncertainties s_t times those of feature chi(t), none of them zero; for instance the same feature twice or in two units), started with profile columns that are multiples in the same way, takes the course of the run on the distinct features with the uncertainty of each feature divided by the square root of the sum of (d_t/s_t)^2 over its copies: same losses, convergence, reports and contributions, and profile columns that stay multiples of each other. For ws-nmf the contributions computed for given profiles have this property, with every matrix inverse, but the profile step does not even for an exact copy of a feature, because EPSILON is added to both of its sums. Runs of the Python loop have the property of the compiled ls-nmf runs.", "quantifier": "all data, uncertainties, repeated features, multiples, starting factors, loop parameters and clocks", "why_tests_cant": "a statement about whole runs on all data sets with proportional columns.", "anchors": ["rust/lib.rs:ls_nmf_update_cpu", "rust/lib.rs:ws_nmf_update_cpu", "esat/model/ls_nmf.py:LSNMF.update", "esat/model/ws_nmf.py:WSNMF.update"]}
{"id": "C260", "title": "With fixed profiles the contributions converge", "statement": "With hold_h and no delay, from data without negative values or empty rows, positive profiles and a positive start, the contributions of ls-nmf converge to non-negative contributions with the smallest loss, also if these are not unique; which of them is the limit can depend on the start. The distance from every best solution, measured by an explicit expression that is not negative and bounds the difference of the square roots of each contribution, falls in every update by at least the excess of the loss over the smallest one, so that the excess after t iterations is at most the distance of the start divided by t. The compiled run returns the profiles unchanged and contributions as close to the limit as wanted if it makes enough iterations; so does the run of the Python loop.", "quantifier": "All data, uncertainties, profiles, starts, settings and numbers of iterations.", "why_tests_cant": "A statement about limits of endless runs, and about all solutions of the fit.", "anchors": ["rust/lib.rs:ls_nmf_update_cpu", "esat/model/ls_nmf.py:LSNMF.update", "esat/model/sa.py:SA.train"]}
{"id": "C261", "title": "One factor with uncertainties of product form reaches the best model", "statement": "If the uncertainties are products of a number per sample and a number per feature (for instance all equal), an ls-nmf run with one factor is a power iteration. There is a best model with one factor among those of any signs, and one that is not negative. From data without negative values, empty rows or empty columns and a positive start, every run without hold_h, compiled or in Python, of t iterations ends with a loss that exceeds the smallest one by at most C / (2 (t - 1)); C is the decrease of the loss from no factor to the best one, times the squared tangent of the angle between the best profile and the first one computed. The modelled values converge to those of a best model. So no start leads to a worse local minimum. Without the product form this is false: there are uncertainties and a positive start which every compiled run returns unchanged although another model with one factor has a smaller loss.", "quantifier": "All non-negative data, uncertainties of product form, positive starts, settings without hold_h and numbers of iterations.", "why_tests_cant": "A claim about the smallest loss over all models and about runs of every length.", "anchors": ["rust/lib.rs:ls_nmf_update_cpu", "esat/model/ls_nmf.py:LSNMF.update", "esat/model/sa.py:SA.train"]}
{"id": "C262", "title": "Project directories with percent signs or blanks", "statement": "The setup commands store the project directory in a configparser configuration as it is, and run takes its output directory from the file. The directory read is the one given exactly if it has no percent sign and no blanks at its ends. A directory with percent signs, none followed by another one or an opening parenthesis, makes setup end with a ValueError before a file is written. Other directories with percent signs are refused, cannot be read, or are read as a shorter text, so that run writes to another directory than the one in which the other commands look. Every directory could be stored by doubling its percent signs. A value with such single percent signs that is written into a file by hand, for instance the name of a data file, cannot be read.", "quantifier": "All directory names without line breaks, run and simulator configurations.", "why_tests_cant": "Needs all texts; the usual test directories have no percent signs.", "anchors": ["esat/cli/esat_cli.py:setup", "esat/cli/esat_cli.py:setup_sim", "esat/cli/esat_cli.py:run", "esat/configs.py"]}
{"id": "C263", "title": "Very large uncertainties take cells, samples and features out of the training", "statement": "Let the uncertainties of some cells of an ls-nmf training grow beyond all bounds (also compared with the data there), with whole samples or features multiplied by growing numbers as well, while everything else is fixed or approaches limits; exact arithmetic, positive start, and every sample has a positive value in a kept cell of a kept feature and every feature one in a kept cell of a kept sample. If in the training on the kept cells of the kept samples and features no difference of losses that the stopping test compares with converge_delta equals it, then from some point on every compiled run makes as many iterations and stops for the same reason as that training, its losses approach the losses of that training, and its contributions of kept samples and profiles at kept features approach those of that training. The training on the kept cells uses nothing of the other cells. Samples and features that are weakened as a whole still get positive contributions and profile values, which approach limits. The same holds for runs of the Python loop, whose test needs one more loss, for every robust_alpha.", "quantifier": "all numbers of samples, features and factors, all sets of weakened cells, samples and features, all ways in which the uncertainties grow, all settings of the loop and clocks", "why_tests_cant": "a limit over infinitely many uncertainties, for whole runs", "anchors": ["esat/model/sa.py:79", "rust/lib.rs:353-398", "esat/model/ls_nmf.py:39-49"]}
{"id": "C264", "title": "Small changes of the data under ws-nmf", "statement": "Let data, uncertainties and starting factors of ws-nmf approach (in any way) data without negative entries, non-zero uncertainties and positive profiles; exact arithmetic, an inverse routine that inverts invertible matrices, same settings. If the profiles of the limit are linearly independent before every update, then after every fixed number of updates, with or without the profiles held, the factors exist from some point on and approach those of the limit; and if no difference of losses that the stopping test of the limit compares with converge_delta equals it, then from some point on every compiled run makes the same number of iterations, stops for the same reason, and its factors and losses approach those of the limit. The condition always holds with one factor, and with held profiles if the starting profiles are independent. It is needed: with two factors there are positive profiles approaching positive dependent ones for which the contributions grow beyond all bounds in the first update. The same holds for runs of the Python loop, whose test needs one more loss, for every robust_alpha.", "quantifier": "all numbers of samples, features and factors, all converging families, all settings of the loop, clocks and correct inverse routines", "why_tests_cant": "a limit over infinitely many data sets, for whole runs", "anchors": ["esat/model/ws_nmf.py:9-98", "rust/lib.rs:693-769"]}
{"id": "C265", "title": "Very large uncertainties under ws-nmf", "statement": "ws-nmf, exact arithmetic, an inverse routine that inverts invertible matrices, positive starting profiles. Let the uncertainties of some cells, of whole features or of whole samples grow beyond all bounds (in cells and features also compared with the data), while the other uncertainties and the data approach non-zero uncertainties and data without negative values. Compare with the training in which only the kept cells of the kept samples and features count: if in it the profiles are, before every update, linearly independent on the kept features of every sample, and no compared difference of losses equals converge_delta, then from some point on every compiled run makes its number of iterations and stops for its reason, the losses approach its losses, and the factors have limits that agree with its factors on the kept samples and features. Unlike under ls-nmf, a feature that is left out keeps its starting profile: EPSILON is then all that remains of the update. Multiplying the uncertainties of some samples and features by c gives, as c grows, the code's own training of the data without them. The condition on the profiles always holds with one factor if every sample keeps a feature. The same holds for runs of the Python loop, whose test needs one more loss, for every robust_alpha.", "quantifier": "all numbers of samples, features and factors, all converging families, all choices of cells, samples and features, all settings of the loop, clocks and correct inverse routines", "why_tests_cant": "a limit over infinitely many data sets, for whole runs", "anchors": ["esat/model/ws_nmf.py:9-98", "rust/lib.rs:693-769"]}
{"id": "C266", "title": "Samples that are multiples of each other, and samples without signal under ws-nmf", "statement": "A compiled ls-nmf run on data in which samples are multiples of others (values d_t times and uncertainties s_t times those of sample phi(t), none of them zero), started with contributions that are multiples in the same way, takes the course of the run on the distinct samples with the uncertainty of each sample divided by the square root of the sum of (d_t/s_t)^2 over its multiples: same losses, convergence, reports and profiles, and contributions that stay multiples of each other. For ws-nmf with a homogeneous inverse this holds for all starting contributions, and d_t may be zero as long as every distinct sample has a multiple that is not. In particular a sample of zeros does no harm under ws-nmf, with any inverse: its contributions are zero after every update, and losses, convergence, profiles and the other contributions are those of the training without it (under ls-nmf it makes the factors NaN, C240). All of this holds for the Python loop too.", "quantifier": "all data, uncertainties, multiples, starting factors, loop parameters and clocks; all homogeneous inverses, for a sample of zeros all inverses", "why_tests_cant": "a statement about whole runs on all data sets with proportional rows", "anchors": ["rust/lib.rs:ls_nmf_update_cpu", "rust/lib.rs:ws_nmf_update_cpu", "esat/model/ls_nmf.py:LSNMF.update", "esat/model/ws_nmf.py:WSNMF.update"]}
{"id": "C267", "title": "A displacement that ends with an exception, and the runs after it", "statement": "If the displacement of a requested factor and feature raises an exception, run raises and the compiled results and the swap and count tables stay as they were. With workers an exception while increasing leaves the object unchanged, and one while decreasing keeps only the new increasing results. Without workers the factors before the first failing one keep their new results in that direction, the others what they had before. Whatever happened to the object before, a run without exceptions returns and its compiled results are those of the first run of a new object; after any sequence of runs the tables count the runs that returned only: each column twice the number of requested features per run, and over all columns the factor swaps of both directions once per run.", "quantifier": "all models, requested features without repetition, dQ levels, modes, orders of the workers, sets of failing tasks and sequences of runs", "why_tests_cant": "a statement about all failures and all sequences of runs; provoking an exception in a chosen worker needs a modified package", "anchors": ["esat/error/displacement.py:Displacement.run", "esat/error/displacement.py:Displacement._run_all_increase_disp", "esat/error/displacement.py:Displacement._run_all_decrease_disp", "esat/error/displacement.py:Displacement._increase_disp", "esat/error/displacement.py:Displacement._decrease_disp"]}
