# Formal model of akusok/hpelm in Lean 4 — design

## 1. Approach

`/verif/lean/Verif` contains a shallow, executable Lean model of the Python code, function by function, with
Python exceptions as values (`Except PyErr α`), plus theorems about it.  Layout:

| directory | content |
|---|---|
| `Verif/Model/*`  | the model: one definition per Python function, each with a comment citing file and lines |
| `Verif/Spec/*`   | small independent specifications (what a confusion matrix *is*, what ridge optimality *is* ...) |
| `Verif/Lemmas/*` | helper lemmas, no property statements |
| `Verif/Props/*`  | the property theorems `C01_…` … and, beside them, `example`s showing non-vacuity |

Numbers: the model is polymorphic in an ordered field `K` (exact arithmetic).  `exp`, `tanh`, `sqrt`,
`astype(precision)` and the LAPACK/NumPy solvers (`posv`, `pinv`, `lstsq`, `inv`) are fields of a record `Env K`;
theorems that need a law about them take it as an explicit hypothesis (e.g. `env.Lawful`), and a lawful
environment over `ℝ` is constructed so that these hypotheses are known to be satisfiable.  Random numbers (initial
weights, shuffles) are arguments.  NumPy 2-D arrays are `Mat K` = number of columns + list of rows; a neuron weight
matrix `W` (inputs × number) is stored transposed, as the list of its columns.

Concurrency (async reader/writer processes, parallel writers with lock files, crash of `save`) is modelled by
small-step transition systems whose steps are the queue / lock / file operations; theorems quantify over all
schedules.

## 2. Trusted base

* Lean 4.33 kernel; axioms `propext`, `Classical.choice`, `Quot.sound` only (checked with `#print axioms`).
* The reading of the Python source: the tie between model and code is by citation and inspection only.
* Contracts of external code, which appear as explicit hypotheses: see `Env.Lawful` (LAPACK/NumPy linear algebra in
  exact arithmetic), pickle round-trip (`loads ∘ dumps = id` is built in: the model saves a record), bounded FIFO
  semantics of `multiprocessing.Queue`, mutual exclusion of `fasteners.InterProcessLock`, PyTables arrays as
  row-major matrices, PyTables' policy for opening a file that is already open (`Mode.clash`).
* Not modelled: floating-point rounding outside `Model/Rounded.lean`, `Model/RoundedNorm.lean` and `Model/RoundedLoo.lean` (accumulation,
  prediction, mean squared error, normalization parameters, leave-one-out errors: C96–C98, C104, C105; all other arithmetic theorems are
  in exact arithmetic; NaN/inf appear only where stated), dtype dispatch, performance, CUDA itself, `fix_affinity`, Python object
  identity outside `Model/Heap.lean` (arrays shared between the network and its user: C94, C95).

## 3. Plan per property

(Each property `Cnn` of properties.jsonl → theorem(s) `Cnn_*` in `Verif/Props`.)

| id | model | proof | expected |
|---|---|---|---|
| C01 | `NNet` + all its operations as `Op`/`step` | invariant, induction over op lists | proved |
| C02 | `NNet.addNeurons`, `ELM.addNeurons`, `project` | list algebra | proved |
| C03 | `project`, `predict` | row-wise characterisation | proved |
| C04 | `ELM.addNeurons` default init, `lin` | induction on lists | proved |
| C05 | `act` over ℝ with real `exp`, `tanh` | analysis lemmas of Mathlib | proved |
| C06 | `ELM.addNeurons` guard, `project` lookup | false for `ufunc` (KeyError): refutation + partial for the six names | partial |
| C07 | `addNeurons`, `prune`, `predict` | unfolding | proved |
| C08 | `prune` | induction over groups | proved |
| C09 | `arraySplit`, `addData` | sizes/concatenation of numpy.array_split | proved |
| C10 | `addData`, `addBatch`, `solve` | additivity of HH/HT over row lists | proved |
| C11 | same | additivity; false for automatic weights | partial |
| C12 | same | permutation invariance of list sums | proved |
| C13 | `train`, `HPELM.train` | state after reset | proved |
| C14 | `solve` for three solvers, contracts | bridge to Mathlib matrices, strict convexity | proved |
| C15 | `addBatch`/`getCorr` of three solvers; `train` of every kind | refinement: triangle of HH; step-by-step simulation of whole training runs (`Lemmas/SolverSim.lean`) by the basic solver's run, the systems being positive definite; the same for `HPELM.train`, `add_data` into files, `solve_corr`, `validation_corr` | proved |
| C16 | `setCorr`,`getCorr` | false for default solver: refutation + partial | partial |
| C17 | `solveCorr` | false in rank-deficient branch: refutation for every lawful env + partial | partial |
| C18 | `addData` weights | entrywise | proved |
| C19 | `addData` auto weights | counting | proved |
| C20 | `addData` weights | false: refutation + partial | partial |
| C21 | `parseArgs` | fold over args | partial |
| C22 | `parseArgs`,`train` | false for V/CV/LOO: refutation + partial | partial |
| C23 | constructor, `parseArgs`, `error` | false: refutation + partial | partial |
| C24 | `checkData` | case analysis | proved |
| C25–C29 | `error`, `confusion` | counting, batches | proved |
| C30 | `HPELM.error` | batch sums; false for `wc` with absent class (0/0) | partial |
| C31–C32 | `myopt` (the search loop), `trainV`, `trainLOO`, `trainCV` | measure; invariant; on the returned network: the scores of the search are errors of networks trained directly (`DirectError`) | proved |
| C33 | `myopt` | refutation; loop invariants (exact for 2^k+1 sizes, distance bound for every number of sizes) | partial |
| C34 | fold index lists | arithmetic mod k | proved |
| C35 | `trainCV` | IndexError for < 3 neurons: refutation + partial | partial |
| C36 | `trainCV` | returned error is of the full network: refutation + partial | partial |
| C37 | `trainLOO` scoring | Sherman–Morrison on Mathlib matrices | proved |
| C38 | `trainV`, `trainLOO`, `prune` | permutation + uniqueness of ridge solution; for rankings that are cut off every entry but that of the cut-off itself (Props/C38_Cutoff) | partial |
| C39 | `trainV` | final refit unweighted: refutation | partial |
| C40–C41 | `mrsr`, `mrsr2`, sign table | invariant over steps; bits | proved/partial |
| C42–C45 | `HPELM.addData/predict/project` | slices; C45 false for istart>0 | mixed |
| C46 | files fHH/fHT | sums over parts | partial |
| C47–C48 | transition system of writers with locks, creation, crash | invariant; creation race and torn pair refuted | partial |
| C49–C50 | transition system of queues | invariant + measure + progress | proved (in range) |
| C51 | `validationCorr` | leading blocks | proved/partial |
| C52–C54 | `save`/`load` | structure | C53 partial |
| C55 | file-system steps of `save` | refutation | partial |
| C56–C58 | `makeHdf5`, `normalizeHdf5` | sums; C58 false | mixed |
| C59 | `project`, `act` | entrywise; real analysis | proved |
| C60 | `Gpu.lean`: kernel threads (read, write) over a device memory, block-wise assembly | closed form of any schedule by counting; overrun refuted | partial |
| C61 | `rbfParam` with the random draws as arguments | induction over the draws; termination false for coinciding points | partial |
| C62 | `corrSizes` over ℝ | monotonicity of exp and log; rounding within 1 | proved |
| C63 | `hAddData`, `storeCorr` (in-place subtraction on the array of the basic solver) | case analysis; refuted for the basic solver | partial |
| C64–C68 | plain `train` + `predict` | consequences of the regularised normal equations, uniqueness and optimality of their solution | proved |
| C69 | every call with the state it leaves behind when it raises (`Model/Failures.lean`), histories with caught exceptions | invariant over histories; C13 for the later training; refuted for `load` into a model with a chosen solver | partial |
| C70 | `add_data` / `add_batch` statement by statement, with NumPy broadcasting | counterexamples; partial: wrong inputs, no neurons, zero batch | partial |
| C71 | open handles of the process (`Model/Handles.lean`): every call as its sequence of opens and closes, PyTables' open policy, data-dependent exceptions arbitrary | refutation for every history that writes a file after it was given as data; induction over histories that keep the two kinds of files apart | partial |
| C72 | as C71 with exceptions at arbitrary points | invariant on histories: no stray handle; refutations | partial |
| C73 | `Model/AsyncCrash.lean`: the transition system of C49 plus death of the reader or the writer at any point, also in the middle of writing a batch | invariant over all executions with deaths (rows are zero or right), rank for termination; refutations: a hang for every call, silent loss | partial |
| C74 | the transition system of C50 plus death of readers | invariant: batches fed in order; rank; hang refuted for every call | partial |
| C75 | the writers of C47 observed by a reader without lock, every cell read at its own moment (`Spec/Reading.lean`) | monotonicity of the writers + cell invariant of C47; refutation by a schedule | partial |
| C76 | `error`, `confusion` on matrices (`Model/Elm.lean`) | sums and means under `List.Perm` | proved |
| C77 | `error`, `confusion` (`Model/Elm.lean`), `Spec/Errors.lean: Renumbered, Untied` | C25-C28 + reindexing of sums; refutation by a tie | partial |
| C78 | `error`, `confusion` on stacked matrices; `HPELM.error` on consecutive ranges (Props/C78_OnDisk) | C25-C28 and additivity of counts and sums; refutation for 'wc' | partial |
| C79 | `train` without structure selection (`PlainTrain`) | normal equations (C14) multiplied by B and summed | proved |
| C80 | `train`, `trainLOO`; `Spec/LeaveOneOut.lean: IsLooError` (a model refitted without the sample) | residual of a left-out sample dominates its training residual (minimality of both fits), then C38 and C39 | proved |
| C81 | two `PlainTrain` runs | the difference solves the normal equations of the difference of the targets; C79 | proved |
| C82 | `ELM.parseArgs`, `trainBody`, `hTrain`, `ELM.init`, histories | invariant of the flag loop; weights traced through every training path; constructor weights: refutation + invariant over histories | partial |
| C83 | `trainV`, `trainCV`, `trainLOO`, `refit` behind `ELM.train` | kept neurons are a sub-multiset; uniqueness of the ridge optimum for any order of the neurons | proved |
| C84 | `trainV`, `trainLOO`, `trainCV`, `mrsr`, `mrsr2`, `elmErrorPress` | simulation of the ranking loops under a reordering of rows; permutation invariance of sums and means; cross-validation false | partial |
| C85 | `mrsr`, `mrsr2`, `ELM.ranking`, `trainV`, `trainLOO`, `trainCV` | specification of the path in `Spec/Path.lean`; loop invariant of `mrsr` (fitted values, equal correlations, sign table gives all crossings); false for ten or more outputs | partial |
| C86 | `trainV`, `trainLOO`, `elmErrorPress`, `myopt` | totality of every step: leverages are not 1 with a positive ridge constant, every size can be scored, the search ends; weighted leverages are below 1 if all weights are at least 1; false for optimal pruning of one neuron, and for leave-one-out with class weights below 1 | partial |
| C87 | `trainV`, `trainLOO`, `myopt`, `ELM.error` | the full network is one of the candidates with its own penalised error (C32), the entry of the kept size is the error of the returned model (C38); false with `kmax` below the number of neurons; with a limit on the ranking it holds for every size below the limit (Props/C38_Cutoff); cross-validation (Props/C87_CrossValidation) for any kind with non-negative class weights: the error of the neuron sets of all rounds against that of all neurons; false for weighted classification with a validation set (the re-training drops the weights) | partial |
| C88 | `NNet.addBatchGpu`, `cublasSyrk`, `gpuUpdHH` (flat device memory, column-major library call), `NNet.addBatch` | address arithmetic of the two storage orders, refinement of the GPU batch to the CPU batch | proved |
| C89 | `train` with the state after an exception, including the three structure selections (`ELM.trainS`, `trainVS`, `trainLOOS`, `trainCVS`) | adding unweighted data of checked shapes is atomic, so plain training leaves a reset network; refitting after selection cannot fail, so the neurons survive; refuted for failing selections, whose data stay accumulated, and for weighted training with a sample without a class in a later batch; with weights the failing batch itself leaves nothing behind (Props/C89_Weighted) | partial |
| C90 | `ELM.init`, `parsePrec`, `Op`/`ELM.run`; spec `Spec/Options` (`Mentions`, `asksFor`) | precision, accelerator, solver, sizes and norm invariant under every operation (induction over histories); string containment proved equal to the infix relation in any letter case; refuted for "Single" and for the solver after `load` |
| C91 | `ELM.train`, `predict`; spec `Spec/Twin` (corresponding samples, neurons, models; `SameOutcome`) | relational simulation through every training mode (`Lemmas/Twin`); invariance of each neuron function under reordering, shift, scaling and zero padding |
| C92 | `scoreLOO`, `elmErrorPress`, `trainLOO`; spec `Spec/LeaveOneOut` (`LeftOutPreds`, `FittedPreds`, `Shrink`, `scaledMisses`), `Spec/Errors` (`IsError`) | leverages lie in [0,1) (Gram matrix identity), so residuals shrink by R in (0,1]; regression: recorded error = error of the left-out predictions; classifiers: refuted with an evaluated call, and the exact formula of what is compared is proved |
| C93 | `ELM.train` (weighted and unweighted plain training); spec `Spec/Training` (`PlainTrain`, `Predicts`, `classFit`) | normal equations are homogeneous in (weights, regularisation) and have one solution; exchange argument between the two minimised objectives for a raised weight |
| C94 | `Model/Heap.lean`: `add_batch`, `solve`, `get_corr`, `set_corr`, `get_B`, `set_B`, `_project`, `_predict`, `_prune`, storing `HH`/`HT`, over a memory of arrays with in-place updates | invariant: references of the network are distinct existing arrays, library code changes only its accumulators; refinement of the value model by induction over programs | proved |
| C95 | as C94 | projections, predictions, GPU results, output weights, and everything after a `reset` keep their contents; refuted for `get_corr` (torn pair with the default solver) and for writing into `get_B` | partial |
| C96 | `Model/Rounded.lean`: `AddBatchR`, `FeedR`, `getCorrR` as relations (`env.cast` is the rounding, `Sums` any order and association of a sum, fused products allowed); spec `Spec/Rounding` (`Rounding`, `samples`, `gram`, `cross`, `drift`) | backward error analysis by induction on the summation tree, composed over batches; agreement with the exact model when rounding changes nothing; floating-point rounding of any length shown to meet the hypotheses; two admissible runs with different bits | proved |
| C97 | `PredictR`, `MseR`; spec `meanSquare` | summation bound; agreement with `predict` and `elmError` when rounding changes nothing | proved |
| C98 | C96 plus arbitrary weights `W`; spec `Spec/Best` (`objective`, `Best`) | normal equations from minimality, coercivity of the Gram matrix plus norm, Cauchy-Schwarz | proved |
| C99 | the writers of C47 with an addition without laws; spec `Spec/Serial` (`oneByOne`, `HoldsInOrder`) | invariant: list of completed updates per file, values read by the lock holder; conversely sequential runs; rounding bound by induction over the order | proved |
| C100 | `ELM.train`, `predict`, `error` after `ELM.run`; spec `Spec/Usable` (`Documented`) | accepted arguments give one kind; shapes through batches and solver; positive definiteness gives completion; errors by C24, C26–C29. Exact arithmetic; behaviour of libraries on empty matrices (a network all of whose neurons were pruned) is not modelled | proved |
| C101 | `ELM.train`, `add_neurons`, `project`, `predict`, `error`; spec `Spec/Representable` (`LinearIn`) | normal equations applied to the difference of the coefficients, completing the square; Cauchy–Schwarz for new samples; default linear neurons reproduce the inputs | proved |
| C102 | `ELM.hTrain`, `hPredict`, `hErrorOf` after `ELM.hRun`; spec `Spec/Usable` (`Documented`), `Spec/DataArgs` | on-disk calls keep neuron types, inputs and outputs (induction over the history); then C100 through C43, C44, C30 | proved |
| C103 | `__str__` (`Model/Describe.lean`) | text parsed back at the commas and spaces; invariant over histories that every neuron type is one `add_neurons` accepts | proved |
| C104 | `normalize_hdf5` for one column with rounding and unknown orders of summation (`Model/RoundedNorm.lean`) | at most N+4 roundings per entry, by induction over the batches; variance by Cauchy–Schwarz | means and variances proved; that `std` is a number refuted |
| C105 | divisors and leave-one-out errors of `train_loo` with rounding (`Model/RoundedLoo.lean`) | roundings counted through two products | bound proved; that the error is a number refuted |
| C106 | the reporting part of the six loops over batches, with a clock (`Model/Progress.lean`) | induction over the passes | when: proved; what the line says: proved without helper processes, refuted with them |
| C107 | `NormLeft`: what a killed `normalize_hdf5` can leave, any subset of rows of the batch being written (`Model/NormCrash.lean`) | rows by induction over batches; repeating refuted; undoing by algebra | partial |
| C108 | `hAddData` with file names | shapes from `_prepare_fHH`, entrywise sums; single and equal names refuted | partial |
| C109 | existing model: `train`, `addData`, `solve` in sequence | C11 plus independence of `add_data` from old output weights; comparison of two minimisers of nested objectives, uniqueness from C14 | proved |
| C110 | `Model/PredictCrash` (file left by a killed `predict` or `project`) | prefix of the batch loop (lemma of C44), entrywise; earlier result destroyed: witness | partial (false as stated) |
| C111 | `Model/AddDataFail` (`ELM.hAddDataS`: files also when `add_data` raises, shown to agree with `ELM.hAddData`) | case analysis over the points where the call raises; writing never fails for fitting files; created files and solving from nothing: witnesses | partial (false as stated) |
| C112 | The code blocks of docs/parallel.rst as programs over the model (`Spec/Tutorial.lean`: `step1`, `step3`, `step4`, `step5`, `tutorial`); scripts of step 3 run one after another in any order (interleavings of their writes: C47). | Composition of C46 (files hold the sums of the samples fed), C52 (loading restores the model), C44 (prediction into a file) and the uniqueness of the ridge solution; permutation of the sample numbers. | holds, except for the last line of the page (refuted) |
| C113 | the transition system of the writers (C47) with the matrices that `add_data` computes from each range (C44, C46), followed by the scripts of C112 | refinement: every finished interleaving leaves on the disk the regularised sums over all the samples (`scripts_disk`), then as C112 | false when the files do not exist yet (creation race); proved when one script runs alone first |
| C114 | as C113, with processes that die (`WCStep`), then a second transition system of the scripts that died, started from the files left by the first | invariant: if processes die only before they change a file, the files hold the contributions of exactly the finished ones (`early_holds`); then `scripts_disk_on` for the finished, `scripts_disk` for the repeated scripts | false for deaths after the first written cell |
| C115 | `ELM.train`, `predict`, `project` (as C14) | normal equations rearranged (`C115_weights`), multiplied with new neuron outputs (`C115_predictions`); corollaries for silent, equal and nearly equal neurons | proved |
| C116 | `NNet.project`, `NNet.predict` over the reals with the real exp, tanh and square root (`RealFns`) | derivative bounds of the three activation shapes (mean value inequality), Lipschitz bounds of the scalar product and of the three distances, summed over the neurons | proved |
| C117 | `makeHdf5`, `makeHdf5Files` (files after any call), `MakeLeft` (files after a crash), `checkOne` | case analysis on the kind of data, induction on the lines; counterexample for the old contents | partial (`C117_previous_refuted`) |
| C118 | `naiveScript` (`Model/Naive.lean`) | C100 for completion, C27 for the error, hits and misses counted by induction on the samples | proved |
| C119 | `Model/NormArgs.lean`: kinds of sequences, `std[std == 0] = 1` on each of them, order of attribute writing and failing, the caller's object afterwards | entry by entry from the batched update; refutations hold for every file, not just for a witness | partial: false for lists, tuples, arrays with zeros, one parameter alone |
| C120 | `ELM.train` (plain), `predict`, `error` | normal equations of C14 compared with arbitrary weights: the cross term is bounded by completing the square; parameter statement with C67 | proved |
| C121 | ranges, slices and batch bounds of `Model/Hpelm.lean` with negative integers, `Model/TrainAsync.lean` | the batches counted from the end are the batches counted from the beginning shifted by N, and each slice is the same; a range reaching the end has a first batch whose slice is empty | partial: false for ranges reaching the end of the data |
| C122 | `mrsr2First`, `mrsr2Search`, `mrsr2Step` of `Model/Mrsr.lean`; specification `Spec/NormPath.lean` over the reals | first pick: maximisation loop invariant. Second pick: the gap of a column is a concave continuous function of the step, so the root finder gets a function that changes sign once, and the loop keeps the smallest root. Third pick refuted for every correct root finder and solver | partial: false from the third pick on, and with ties |
| C123 | `Spec/TargetUnits.lean`: `times`, `rescaled`, `ScalesSolutions` (posv and lstsq are homogeneous in the right-hand side; an assumption about the library, not needed for the basic solver's pseudo-inverse), `ScalesRoots` (sqrt, brentq and lu_solve, needed only for optimal pruning with ten or more outputs). Whole `train` in exact arithmetic | every step commutes with the factor: accumulation, solution, errors (factor squared), mrsr (ratios unchanged; for a negative factor the sign table is permuted), mrsr2, the search (strictly monotone map of the error array that keeps the marker -1), final training | proved: `C123_units` for every factor other than zero |
| C124 | `FState`, `FCall` of `Model/Handles.lean` (open files of the process, modes that clash) | a handle nobody holds is never closed by any step (induction over histories), and every call that reads or makes the file has a step that clashes with it | partial: `C124_usable_refuted` (for every history), `C124_created_refuted`, `C124_failed_partial` |
| C125 | as C123, with the errors of classification | as C123: `ErrFactor` says by which factor errors change, none for classification because the position of the largest entry does not change | proved: `C125_codes` |

## 4. What is modelled, file by file

| source | modelled | not modelled |
|---|---|---|
| `hpelm/nnets/slfn.py` | `__init__` (neuron functions), `add_neurons`, `reset`, `_project`, `_predict`, `add_batch`, `solve`, `solve_corr`, `get_corr`, `set_corr`, `get_B`, `set_B`, `get_neurons`, `_prune` (`Model/Slfn.lean`); `add_batch` with the state left by an exception (`Model/Failures.lean`) | dtype selection beyond a tag `Prec`; ufunc neurons as opaque accepted types |
| `hpelm/nnets/slfn_python.py` | triangular `add_batch`, `solve_corr`, `get_corr` (`Model/Slfn.lean`) | BLAS `syrk` in-place memory behaviour |
| `hpelm/nnets/slfn_skcuda.py` | `_project` and the sigmoid kernel as interleaved threads over a device memory (`Model/Gpu.lean`); its `add_batch` on flat device memory with the column-major `cublasSsyrk` (C88); elsewhere its accumulation and solver as the solver tag `.cuda` | cuBLAS/MAGMA numerics, streams, memory pools |
| `hpelm/elm.py` | constructor, `_train_parse_args`, `train`, `add_data`, `add_neurons`, `error`, `confusion`, `project`, `predict`, `_error`, `_ranking`, `_checkdata`, `save`, `load`, `dumps`, `loads`, `__str__` (`Model/Elm.lean`, `Model/Hdf5.lean`, `Model/Describe.lean`) | – |
| `hpelm/mss_v.py`, `mss_cv.py`, `mss_loo.py` | `train_v`, `train_cv`, `train_loo` with the search over sizes (`Model/Elm.lean`, `Model/Myopt.lean`) | – |
| `hpelm/modules/mrsr.py`, `mrsr2.py` | ranking of neurons (`Model/Mrsr.lean`); `brentq` is an `Env` function | – |
| `hpelm/modules/rbf_param.py` | whole function, random draws as argument (`Model/RbfParam.lean`) | – |
| `hpelm/modules/hdf5_tools.py` | `make_hdf5` (arrays, text, empty), `normalize_hdf5`, `_prepare_fHH`, `_write_fHH` (`Model/Hdf5.lean`, `Model/NormArgs.lean`, `Model/MakeCrash.lean`, `Model/NormCrash.lean`, `Model/Hpelm.lean`, `Model/Writers.lean`) | chunking, compression, `_ireader`/`_iwriter` outside of the transition system |
| `bin/elm_naive.py` | the script, on given data (`Model/Naive.lean`) | reading the text files |
| `hpelm/hp_elm.py` | `train`, `add_data`, `solve_corr`, `predict`, `project`, `error`, `validation_corr`, `train_async`, `add_data_async`, `predict_async` (`Model/Hpelm.lean`, `Model/PredictCrash.lean`, `Model/AddDataFail.lean`, `Model/Async.lean`, `Model/TrainAsync.lean`, `Model/LogSizes.lean`); progress reports (`Model/Progress.lean`) | – |

Histories: `Model/Ops.lean` (in-memory operations) and `Model/HOps.lean` (on-disk operations) define one step per public
method, so that properties can be proved by induction over all call sequences; they stop at the first exception.
`Model/Failures.lean` gives the state after an exception, for histories in which exceptions are caught.
`Model/Handles.lean` adds the open file handles of the process, `Model/AsyncCrash.lean` the death of helper processes,
`Model/Heap.lean` arrays in memory with in-place updates, `Model/Rounded.lean`, `Model/RoundedNorm.lean` and `Model/RoundedLoo.lean` rounding and unknown summation orders.

## 5. Simplifications and how they affect the claims

* Exact arithmetic.  Every equality (batch-size independence, solver interchangeability, C64–C68, …) is about exact
  arithmetic; in floats it holds up to rounding only.  C96–C98, C104 and C105 bound that rounding for accumulation, prediction, the mean
  squared error, the output weights, normalization parameters and leave-one-out divisors.
* `Env.Exact` (casts to the working precision are the identity) is an explicit hypothesis where it is used.
* `Spec.Lawful`: `posv` either solves a positive definite system or reports failure; `pinv`, `lstsq`, `inv`, `luSolve` satisfy
  their defining equations.  `Lemmas/LawEnv.lean` constructs such functions over every ordered field, so the hypothesis is
  satisfiable.
* Square roots (weighted classification multiplies rows by the root of the weight): the law `sqrt x * sqrt x = x` is an explicit
  hypothesis of the theorems about weighted training, met by the reals.
* Files are a finite map from names to matrices; PyTables nodes read back what was written and stay readable after the
  file handle was re-opened.
* A crash while pickling leaves a prefix of the serialised model, and a proper prefix cannot be unpickled (C55).
* `multiprocessing` queues are FIFO with bound 1 or unbounded as in the code; processes fail only where a modelled operation
  raises, except in `Model/AsyncCrash.lean`, where they may die at any point (a message is in the queue or not at all).
* The identity comparison `accelerator is "GPU"` is modelled as equality of strings (interned literals in CPython).
* `np.array_split`, `np.where`, `argmax`, slicing with negative and out-of-range bounds are re-implemented in
  `Model/Basic.lean` after NumPy's documented behaviour.

## 6. Statements that turned out to be false of the code

Each is proved as a `_refuted` theorem with a concrete input; the remaining true part is a `_partial` theorem.

| property | behaviour of the code |
|---|---|
| C06 | a NumPy ufunc is accepted by `add_neurons` and makes `project` raise `KeyError` |
| C11, C46 | automatic class weights come from the first part only (or from each part, on disk), so feeding in parts differs |
| C16 | default solver: `get_corr` after `set_corr` with a full matrix doubles its strict lower triangle |
| C17 | default solver: rank-deficient fallback symmetrises a matrix that is full already |
| C20 | a target row that is not one-hot shifts the weights of all later samples |
| C21 | `train(X, T, 'c', 'r')` silently trains as regression |
| C22 | `V`, `CV`, `LOO` are recognised only in upper case, other flags in any case |
| C23 | the kind given to the constructor is lost by `train`; upper-case kinds are never recognised |
| C30 | on-disk weighted error is NaN when a class has no samples in the range |
| C33 | the search over sizes misses the minimum of some unimodal curves |
| C35 | cross-validation with fewer than three neurons raises `IndexError` |
| C36 | the reported test error belongs to the network before pruning |
| C38 | `OP` with `kmax` below the number of neurons records for the size `kmax` the error of the network of all neurons, not of the `kmax` neurons it keeps; all smaller sizes are recorded correctly |
| C39 | the final refit after `V`/`LOO` is unweighted |
| C40 | `mrsr` may raise or return too few neurons |
| C45 | `HPELM.project` with `istart > 0` raises |
| C47, C48 | creation race of the files of parallel writers; a crash between the two files leaves them inconsistent |
| C50 | `train_async` beyond the end of the data waits forever |
| C51 | weighted validation error depends on the batch size |
| C53 | `load`: an object without a chosen solver loses its solver; an object with a chosen one merges the neurons with its own and keeps its sizes |
| C54 | data fed but not solved is lost by `save`/`load` |
| C55 | `save` truncates the old file first: a crash loses both models |
| C58 | `normalize_hdf5` normalises again after an explicit call or not at all |
| C60 | the GPU kernel has no bounds check and writes past the array |
| C61 | `rbf_param` never returns for coinciding points |
| C63 | basic solver: on-disk `add_data` removes the regularisation from the model's own matrix |
| C69 | a failing `load` (saved model into a trained model with a chosen solver) destroys the model |
| C70 | `add_data` with wrong targets raises after the inputs were added to `HH`; one-column targets are broadcast to all outputs |
| C71 | a file given as data (e.g. the predictions given to `error`) stays open for reading until the model is deleted, so no later call can write it (`predict` into it, `normalize_hdf5`, `make_hdf5`): ValueError |
| C72 | `predict`/`project`/`normalize_hdf5` that raise after opening their result file leave it open for good, even after the model is deleted; `n` calls leave `n` open handles |
| C73 | if the reader dies, `predict_async` waits for ever (nobody watches the processes); the same if the writer dies early; if the writer dies while writing the last batch, the call returns normally with predictions missing |
| C74 | if a reader dies before its last batch, `add_data_async` waits for ever |
| C75 | `solve_corr`/`validation_corr` take no lock: they can see the first matrix with a part and the second without it |
| C77 | a tie between two outputs is decided by the smallest class number, so renumbering the classes changes the error of tied predictions |
| C78 | the weighted classification error is an average over classes, not over samples: it is not determined by the errors and sizes of the parts |
| C82 | class weights given to the constructor are discarded by `train`, even with 'wc' (elm.py:118); the automatic weights replace them |
| C84 | cross-validation assigns samples to folds by their position, so the order of the samples changes its result; only reorderings within the folds do not |
| C85 | with ten or more outputs `mrsr2` is used: it ignores a column that ties with the current one at the start of a move (no sign change for `brentq`, the exception is swallowed) and takes a less correlated one; it also computes the step towards the old least-squares fit and then moves towards the new one (mrsr2.py:88-128) |
| C86 | optimal pruning of a network with a single neuron raises `ValueError` (`min` of an empty array in mrsr.py:74) |
| C86 | weighted leave-one-out divides by zero when a leverage is 1: `mss_loo.py:35` uses the inverse of the weighted `HH` with the unweighted `H`, so class weights below 1 can give leverages of 1 and more |
| C87 | with `kmax` below the number of neurons the error recorded for `kmax` is that of the full network, so the pruned model may be much worse than either (7% in the witness); this is the defect of C38 seen from outside. With class weights the returned network is re-trained without them (C39), and its validation error can be ten times that of the network trained without selection |
| C89 | a structure selection that raises (e.g. `train(X, T, 'LOO', 'OP')` with one neuron) leaves its data accumulated; a later `add_data` and `solve` mixes them with new data; so does weighted training when a sample of a later batch has no class (the earlier batches are already accumulated) |
| C90 | `precision="Single"` (or any spelling of single with a capital and without 32) silently gives double precision: elm.py:68 tests `'single' in precision` without `.lower()`. `load` into a default model replaces the fast solver by the basic one, although its documentation says the solver type of the object is kept | `C90_precision_refuted`, `C90_load_solver_refuted` |
| C92 | For classifiers leave-one-out selection does not look at leave-one-out predictions: elm.py:495-513 divides the 0/1 mistakes of the network trained on *all* samples by the shrink factor, so a network that makes no mistake on its training data gets error 0 and is selected, even if every sample is misclassified when left out and a smaller network would do better | `C92_classification_refuted` |
| C95 | `get_corr` of the default solver returns a copy of `HH` but the model's own `HT` (slfn_python.py:69-73): a later `add_data` changes `HT` in the user's hands and not `HH`, so the saved pair belongs to no data set and `set_corr` restores wrong weights; the basic solver returns both by reference, and `get_B` returns the model's own weights |
| C104 | `normalize_hdf5` computes the variance as mean square minus squared mean: three entries 0.1 in double precision give the root of a negative number, `nan`, whatever the order of summation |
| C105 | `train(..., 'LOO')` divides by `1 - h P h'`, which vanishes in double precision for a sample that alone determines a neuron's weight (inputs 100 and 0, one linear neuron, default norm): `0/0`, and the call stops with `Error is NaN` |
| C106 | the asynchronous loops make one pass more than there are batches: the last line can read `processing batch 5/4, eta 0:59:58` (a negative estimate); batches are counted before they are processed |
| C107 | repeating a `normalize_hdf5` call that was killed normalizes the finished rows twice; the file does not tell which rows are finished |
| C108 | `add_data` with only one of `fHH`, `fHT` silently writes nothing; with the same name for both and as many outputs as neurons the file gets the sum of the two matrices |
| C110 | a result that an earlier `predict` left in the output file does not survive an interrupted call, because the file is truncated first (hp_elm.py:207); values not yet written are zeros, which nothing distinguishes from predictions |
| C111 | A rejected `add_data` may leave new files: `fHH` is made before `fHT` is checked, both before the range is looked at. `solve_corr` then accepts the files although no sample was ever added, and returns all-zero weights without any error. |
| C112 | The last line of docs/parallel.rst, `model5.error("dataX.hdf5", "predictedY.hdf5")`, compares the predictions with the inputs instead of the targets: with 10 inputs and 3 outputs it raises `AssertionError` (for all data with different numbers of inputs and outputs). (The page also saves the model as `fmodel.h5` but loads `model.pkl`.) |
| C113 | Two scripts started at the same time on a disk without the files of the matrices: both find them absent, the second creates the first file again after the first script has added to it. No error is raised; the solved model is another one (training error 3/4 instead of 39/50 in the example). Proved: if one script runs alone to its end first, every interleaving of the others gives the predictions of in-memory training; the same from absent files if no script creates a file that another one has just created. |
| C114 | A script killed after it has changed both files and before it releases the second one looks like any killed script; running it again counts its samples twice. No error is raised; the solved model is another one (training error 4677/6050 instead of 39/50). Proved if the killed scripts had not yet changed a file. |
| C117 | `make_hdf5` opens the target with "w" before it has read the text: a bad line in the middle raises, but the old data is gone and the target is a valid data file with the lines before it |
| C119 | `normalize_hdf5` with the standard deviations in a plain list silently leaves the first column undivided: `std == 0` is `False`, and `std[False] = 1` overwrites the first entry. A tuple raises `TypeError` after the file was already marked as normalized. Zeros in the caller's array become ones. A mean given without standard deviations is ignored. |
| C121 | `add_data` with `istart=-m` and no `icount` feeds neither the last m samples nor all of them: if a batch has at least m samples, it feeds everything except the first `batch - m` samples. `predict` raises `ValueError` for the same range, and `error` returns NaN. The range is cut to `N - istart`, which is more than N, and the batch that passes from negative to non-negative indices is an empty slice. |
| C122 | With ten or more outputs the ranking leaves the sparse-regression path at the third neuron, also without ties: `mrsr2` computes the step length for the move towards the fit of the neurons already taken in, but moves towards the fit that includes the new one (`Yk1` is recomputed before `Y` is updated). Four uncorrelated neurons with correlations 16, 8, 6 and 5 are ranked first, second, fourth. |
| C124 | `normalize_hdf5` does not close the file when it raises: until the process ends, every call that reads the file or makes it anew raises, even after the normalization was repeated with correct arguments. A mistyped name creates an empty HDF5 file of that name. |

## 7. Axioms each theorem depends on

Output of `#print axioms` for every theorem of the manifest (namespace `Hpelm.Props` omitted), grouped by the set of axioms.

* **none** (1): `C55_crash_refuted`

* **propext** (3): `C55_crash_partial`, `C55_save_finishes`, `C124_created_refuted`

* **propext, Classical.choice, Quot.sound** (351): `C01_bookkeeping`, `C01_bookkeeping_on_disk`, `C02_preserve`, `C03_predict_row`, `C03_predict_stack`, `C03_project_row`, `C03_project_stack`, `C04_default_lin`, `C05_ranges`, `C06_accepted_usable_partial`, `C06_accepted_usable_refuted`, `C07_structure_invalidates`, `C08_prune`, `C09_batches`, `C09_empty_refused`, `C10_batch_size`, `C11_parts_partial`, `C11_parts_refuted`, `C12_order_add_data`, `C12_order_train`, `C13_forgets`, `C13_forgets_disk`, `C14_ridge_optimum`, `C15_disk_add`, `C15_disk_solve`, `C15_disk_train`, `C15_disk_validation`, `C15_files_posdef`, `C15_same_corr`, `C15_same_train`, `C15_same_weights`, `C16_set_get_python`, `C16_set_get_refuted`, `C17_full_partial`, `C17_full_refuted`, `C17_posDef`, `C18_weighted_sums`, `C18_weighted_sums_add_data`, `C19_auto_weights_balance`, `C20_length_checked`, `C20_shift_partial`, `C20_shift_refuted`, `C21_conflicts_rejected`, `C21_kind_partial`, `C21_kind_refuted`, `C22_case_partial`, `C22_case_refuted`, `C23_constructor_case_refuted`, `C23_constructor_partial`, `C23_constructor_train_refuted`, `C25_confusion`, `C26_confusion_ml`, `C27_classification_error`, `C28_multilabel_error`, `C28_regression_error`, `C29_weighted_error`, `C30_hpelm_error_partial`, `C30_hpelm_error_refuted`, `C31_returned_size`, `C31_search_in_range`, `C31_selected_in_range`, `C31_train_terminates`, `C32_best_tried_cv`, `C32_best_tried_loo`, `C32_best_tried_validation`, `C32_returned_loo_partial`, `C32_returned_partial`, `C33_near_partial`, `C33_unimodal_partial`, `C33_unimodal_refuted`, `C34_folds_partition`, `C34_returned_test_error`, `C34_rounds_use_folds`, `C35_cv_completes_partial`, `C35_small_networks_refuted`, `C36_full_size_partial`, `C36_selected_error_refuted`, `C37_loo_completes`, `C37_loo_training`, `C37_press_exact`, `C38_cutoff_refuted`, `C38_loo_below_cutoff_partial`, `C38_loo_partial`, `C38_validation_below_cutoff_partial`, `C38_validation_completes`, `C38_validation_partial`, `C39_returned_unweighted`, `C39_weights_lost_refuted`, `C40_ranking_partial`, `C40_ranking_raises_refuted`, `C40_too_short_refuted`, `C41_first_pick`, `C41_sign_table`, `C42_ranges`, `C43_train`, `C44_past_end`, `C44_predict`, `C45_istart_raises`, `C45_project_partial`, `C45_project_refuted`, `C46_auto_weights_refuted`, `C46_incremental_partial`, `C46_part_completes`, `C46_solve_completes`, `C47_creation_race_refuted`, `C47_existing_files`, `C47_no_deadlock`, `C47_no_lost_update_partial`, `C47_terminates`, `C48_same_subset_partial`, `C48_subset_partial`, `C48_torn_file_refuted`, `C48_torn_pair_refuted`, `C49_async_predict`, `C49_async_predict_ends`, `C50_async_train_ends`, `C50_async_train_partial`, `C50_beyond_end_refuted`, `C50_train_async`, `C51_candidates_trained`, `C51_validation_corr_partial`, `C51_weighted_refuted`, `C52_load_last`, `C52_round_trip`, `C53_chosen_solver_partial`, `C53_merge_refuted`, `C53_sizes_refuted`, `C53_solver_lost_refuted`, `C54_fed_data_lost_refuted`, `C54_feed_after_load_partial`, `C54_train_after_load_partial`, `C54_train_any_solver`, `C54_train_identical`, `C56_text`, `C56_vector`, `C56_zeros`, `C57_batch_size`, `C57_parameters`, `C58_explicit_partial`, `C58_twice_refuted`, `C58_two_calls_partial`, `C59_bounded`, `C59_neuron_formulas`, `C59_rbf_peak`, `C60_gpu_projection`, `C60_kernel`, `C60_memory_partial`, `C60_memory_refuted`, `C60_overrun`, `C61_hangs`, `C61_rbf_param`, `C61_terminates_partial`, `C61_terminates_refuted`, `C62_sizes`, `C62_sizes_rounded`, `C63_basic_refuted`, `C64_outputs_independent`, `C64_superposition`, `C65_neuron_order`, `C66_more_neurons`, `C67_regularization`, `C68_weights_repeat`, `C69_agrees`, `C69_consistent`, `C69_failed_call`, `C69_load_refuted`, `C70_add_data_partial`, `C70_add_data_refuted`, `C71_predict_after_error_refuted`, `C71_rewrite_refuted`, `C71_separate_files_partial`, `C72_closed_refuted`, `C72_unfinished_refuted`, `C73_crash_partial`, `C73_hang_refuted`, `C73_silent_loss_refuted`, `C74_train_crash_partial`, `C74_train_hang_refuted`, `C75_cell_partial`, `C75_quiet_partial`, `C75_torn_pair_refuted`, `C76_sample_order`, `C77_classes_partial`, `C77_labels`, `C77_ties_refuted`, `C77_weighted_partial`, `C78_confusion`, `C78_error_partial`, `C78_on_disk_partial`, `C78_weighted_refuted`, `C79_balance`, `C80_not_below_training`, `C80_selection`, `C81_stability`, `C82_constructor_weights_partial`, `C82_constructor_weights_refuted`, `C82_given_weights`, `C82_no_weights`, `C82_previous_ignored`, `C82_wrong_count_rejected`, `C83_as_trained_directly`, `C83_kept_neurons`, `C83_only_selects`, `C84_cv_order_refuted`, `C84_training_order`, `C84_validation_order`, `C84_within_folds_partial`, `C85_many_outputs_refuted`, `C85_mrsr`, `C85_optimal_pruning_partial`, `C86_loo_completes_partial`, `C86_single_neuron_refuted`, `C86_validation_completes_partial`, `C86_weighted_loo_partial`, `C86_weighted_loo_refuted`, `C86_weighted_validation_partial`, `C87_cross_validation_partial`, `C87_cutoff_refuted`, `C87_leave_one_out_partial`, `C87_loo_below_cutoff_partial`, `C87_validation_below_cutoff_partial`, `C87_validation_partial`, `C87_weighted_refuted`, `C88_gpu_batch`, `C88_triangle`, `C89_forgets`, `C89_mixed_refuted`, `C89_plain_partial`, `C89_plain_weighted_partial`, `C89_weighted_refuted`, `C90_load_solver_refuted`, `C90_options_partial`, `C90_precision_refuted`, `C91_feature_order`, `C91_ignored_features`, `C91_normalised`, `C91_only_hidden_layer`, `C91_origin`, `C92_classification_refuted`, `C92_not_below_training`, `C92_regression_partial`, `C92_selection_partial`, `C93_common_factor`, `C93_equal_weights`, `C93_raised_weight`, `C94_arguments_kept`, `C94_value_results`, `C94_value_semantics`, `C95_after_reset_partial`, `C95_corr_HH_kept_partial`, `C95_corr_basic_refuted`, `C95_corr_torn_refuted`, `C95_results_kept_partial`, `C95_weights_kept_partial`, `C95_weights_shared_refuted`, `C96_accumulated`, `C96_batches`, `C96_bitwise_refuted`, `C96_diagonal_positive`, `C96_exact_model`, `C96_weighted`, `C97_exact_model`, `C97_mse`, `C97_predict`, `C98_accuracy`, `C98_predictions`, `C98_two_runs`, `C98_unique`, `C99_every_order`, `C99_one_after_another`, `C99_permutation`, `C99_rounded`, `C99_same_files_refuted`, `C100_documented_calls_work`, `C101_linear`, `C101_new_samples`, `C101_representable`, `C102_on_disk_calls_work`, `C103_description`, `C103_histories`, `C104_batches`, `C104_exact_model`, `C104_exists`, `C104_mean`, `C104_std_partial`, `C104_std_refuted`, `C104_variance`, `C105_divisor`, `C105_number_partial`, `C105_number_refuted`, `C106_async_refuted`, `C106_line_partial`, `C106_spacing`, `C106_when`, `C107_repeat_partial`, `C107_repeat_refuted`, `C107_rows_partial`, `C107_undo`, `C108_same_name_refuted`, `C109_continue`, `C109_new_data`, `C110_contents_partial`, `C110_previous_refuted`, `C110_project_contents_partial`, `C111_add_data`, `C111_created_refuted`, `C111_rejected_partial`, `C111_retry`, `C111_untrained_refuted`, `C112_as_printed_refuted`, `C112_workflow_partial`, `C113_all_at_once_partial`, `C113_all_at_once_refuted`, `C113_first_alone`, `C114_rerun_partial`, `C114_rerun_refuted`, `C115_alike`, `C115_duplicates`, `C115_predictions`, `C115_silent`, `C115_weights`, `C116_bounded`, `C116_neurons`, `C116_predictions`, `C117_bad_line`, `C117_previous_refuted`, `C118_demonstration`, `C119_alone_refuted`, `C119_array_partial`, `C119_caller_array_refuted`, `C119_list_differs_refuted`, `C119_list_refuted`, `C120_any_weights`, `C120_error`, `C120_parameter`, `C121_add_data_partial`, `C121_add_data_refuted`, `C121_error_partial`, `C121_error_refuted`, `C121_predict_partial`, `C121_predict_refuted`, `C121_train`, `C121_train_async`, `C122_first`, `C122_second_partial`, `C122_third_refuted`, `C122_training_first`, `C123_units`, `C124_failed_partial`, `C124_usable_refuted`, `C125_codes`

* **propext, Quot.sound** (32): `C02_merge`, `C16_set_get_partial`, `C16_set_get_triangular`, `C24_checkdata`, `C24_rejects`, `C47_mutual_exclusion`, `C49_start_fails`, `C50_start_fails`, `C56_matrix`, `C58_not_applied_refuted`, `C58_repeat_refuted`, `C63_model_kept_partial`, `C72_closed_partial`, `C72_growth_refuted`, `C94_store_agrees`, `C106_async_count_refuted`, `C107_recorded`, `C108_one_name_refuted`, `C108_written_partial`, `C110_project_repeat`, `C110_repeat`, `C111_agrees`, `C111_solve`, `C111_validation`, `C117_interrupted_partial`, `C117_others`, `C117_rejected`, `C117_repeat`, `C117_success`, `C119_array_same`, `C119_length`, `C119_tuple_refuted`
