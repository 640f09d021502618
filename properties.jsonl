{"id": "C01", "title": "Network bookkeeping stays consistent over every history", "statement": "After any sequence of successful public operations (adding neurons, feeding batches, resetting, pruning, setting or solving for output weights, setting correlation matrices) the declared number of neurons equals the sum over neuron types, every neuron has exactly `inputs` weights and one bias, no neuron type occurs twice, stored output weights have one row per neuron and one column per output, and stored correlation matrices have sizes neurons x neurons and neurons x outputs.", "quantifier": "all finite sequences of operations with all arguments, starting from a fresh network", "why_tests_cant": "the set of histories is infinite; a test visits a handful of sequences", "anchors": ["hpelm/nnets/slfn.py:SLFN.add_neurons", "hpelm/nnets/slfn.py:SLFN._prune", "hpelm/nnets/slfn.py:SLFN.set_B", "hpelm/nnets/slfn.py:SLFN.set_corr", "hpelm/nnets/slfn.py:SLFN.add_batch", "hpelm/nnets/slfn.py:SLFN.reset"]}
{"id": "C02", "title": "Adding neurons of one type in pieces equals adding them at once", "statement": "Adding neurons of a type in two calls gives exactly the same model as one call with the weights and biases concatenated, whatever other types the model holds; adding neurons never changes the hidden outputs of the neurons that were already there.", "quantifier": "all models, neuron types, weight matrices, bias vectors and input data", "why_tests_cant": "quantifies over all models and weight values", "anchors": ["hpelm/nnets/slfn.py:SLFN.add_neurons", "hpelm/elm.py:ELM.add_neurons"]}
{"id": "C03", "title": "Projection and prediction are row-wise", "statement": "The hidden representation (and the prediction) of a data matrix is the row-by-row representation: projecting two stacked matrices gives the stacked projections, the result has one row per sample and one column per neuron (per output for predictions), so a prediction for a sample never depends on which other samples are in the call.", "quantifier": "all models and all pairs of data matrices", "why_tests_cant": "infinite input domain, all batch compositions", "anchors": ["hpelm/nnets/slfn.py:SLFN._project", "hpelm/nnets/slfn.py:SLFN._predict", "hpelm/elm.py:ELM.project", "hpelm/elm.py:ELM.predict"]}
{"id": "C04", "title": "Default linear neurons copy input features", "statement": "Linear neurons added without explicit weights number min(requested, inputs), and neuron j outputs exactly input feature j.", "quantifier": "all numbers of inputs, requested neuron counts and input data", "why_tests_cant": "unbounded sizes", "anchors": ["hpelm/elm.py:ELM.add_neurons", "hpelm/nnets/slfn.py:SLFN.__init__"]}
{"id": "C05", "title": "Hidden neuron outputs stay in their documented range", "statement": "In real arithmetic a sigmoid neuron outputs a value strictly between 0 and 1, a tanh neuron strictly between -1 and 1, and an RBF neuron with positive width a value in (0,1], equal to 1 exactly when the sample is the centroid.", "quantifier": "all real inputs, weights and biases", "why_tests_cant": "continuous domain", "anchors": ["hpelm/nnets/slfn.py:SLFN.__init__"]}
{"id": "C06", "title": "Every accepted neuron type can be used", "statement": "A model built from neurons that add_neurons() accepted can project any data matrix of the right width.", "quantifier": "all accepted neuron functions, all data", "why_tests_cant": "tests only check that neurons are stored, not that each accepted kind is usable", "anchors": ["hpelm/elm.py:ELM.add_neurons", "hpelm/nnets/slfn.py:SLFN._project"]}
{"id": "C07", "title": "Changing the network invalidates the old solution", "statement": "After neurons are added or pruned the old output weights and accumulated training data are gone: prediction is refused until the model is trained, solved or given weights again.", "quantifier": "all models and all structural changes", "why_tests_cant": "must hold after every history", "anchors": ["hpelm/nnets/slfn.py:SLFN.add_neurons", "hpelm/nnets/slfn.py:SLFN._prune", "hpelm/nnets/slfn.py:SLFN._predict"]}
{"id": "C08", "title": "Pruning keeps exactly the selected neurons", "statement": "Pruning to a list of neuron indices keeps, for every type, exactly the neurons whose global index is listed, in list order within a type and types in their old order; the hidden outputs of the pruned model are the corresponding columns of the old hidden outputs.", "quantifier": "all models, all index lists, all data", "why_tests_cant": "unbounded models and index lists", "anchors": ["hpelm/nnets/slfn.py:SLFN._prune"]}
{"id": "C09", "title": "Training data is split into batches without loss, overlap or misalignment", "statement": "When data is fed in batches every sample is fed exactly once, in order, no batch exceeds the batch size, and inputs stay paired with their targets.", "quantifier": "all data sizes, all positive batch sizes", "why_tests_cant": "all (N, batch) pairs, including the ragged last batch", "anchors": ["hpelm/elm.py:ELM.add_data"]}
{"id": "C10", "title": "Training result does not depend on the batch size", "statement": "In exact arithmetic, training the same model on the same data with any two positive batch sizes yields the same accumulated matrices and the same output weights, for regression, classification and weighted classification.", "quantifier": "all models, data, target kinds, pairs of batch sizes", "why_tests_cant": "infinitely many (N, batch1, batch2)", "anchors": ["hpelm/elm.py:ELM.add_data", "hpelm/nnets/slfn.py:SLFN.add_batch", "hpelm/nnets/slfn_python.py:SLFNPython.add_batch"]}
{"id": "C11", "title": "Feeding data in parts accumulates to feeding it at once", "statement": "In exact arithmetic calling add_data() on part 1 and then part 2 leaves the model in the same state as one call on the stacked data.", "quantifier": "all models, all splits of all datasets", "why_tests_cant": "all splits", "anchors": ["hpelm/elm.py:ELM.add_data", "hpelm/nnets/slfn.py:SLFN.add_batch"]}
{"id": "C12", "title": "Sample order is irrelevant for training", "statement": "In exact arithmetic permuting the training samples (inputs together with targets) does not change the accumulated matrices or the trained output weights.", "quantifier": "all datasets and all permutations", "why_tests_cant": "N! permutations for all N", "anchors": ["hpelm/elm.py:ELM.add_data", "hpelm/nnets/slfn.py:SLFN.add_batch"]}
{"id": "C13", "title": "Training forgets previous training", "statement": "The result of plain train(X,T,...) depends only on the neurons, the regularisation and the data of this call: anything accumulated, solved or configured by earlier training is discarded. The same holds for training from files.", "quantifier": "all previous histories of the object, all data and flags", "why_tests_cant": "history quantifier", "anchors": ["hpelm/elm.py:ELM.train", "hpelm/elm.py:ELM._train_parse_args"]}
{"id": "C14", "title": "Trained weights are the unique ridge-regression optimum", "statement": "In exact arithmetic, with a positive regularisation parameter, the output weights after plain training satisfy the regularised normal equations and are the unique minimiser of ||HB-T||^2 + norm*||B||^2 over all weight matrices, for the basic, default and GPU solvers.", "quantifier": "all models, data, positive regularisation, all competing weight matrices", "why_tests_cant": "optimality is a statement about all alternatives", "anchors": ["hpelm/nnets/slfn.py:SLFN.solve", "hpelm/nnets/slfn.py:SLFN.solve_corr", "hpelm/nnets/slfn_python.py:SLFNPython.solve_corr", "hpelm/nnets/slfn_skcuda.py:SLFNSkCUDA.solve_corr"]}
{"id": "C15", "title": "All solvers are interchangeable", "statement": "After the same batches, the correlation matrices returned by the basic solver, the fast default solver (which only updates the upper triangle) and the GPU solver (full in double, triangular in single precision) are identical and symmetric. In exact arithmetic training of every kind - plain or with any structure selection, with the same random choices - ends with the same result or exception and the same neurons and output weights under every solver. The same holds for training from files, for correlation matrices accumulated into files (the files come out identical) and for solving or validating from such files.", "quantifier": "all batch sequences, models, training calls and solvers", "why_tests_cant": "unbounded sequences of batches", "anchors": ["hpelm/nnets/slfn.py:SLFN.get_corr", "hpelm/nnets/slfn_python.py:SLFNPython.add_batch", "hpelm/nnets/slfn_python.py:SLFNPython.get_corr", "hpelm/nnets/slfn_skcuda.py:SLFNSkCUDA.get_corr"]}
{"id": "C16", "title": "Correlation matrices survive set/get", "statement": "Setting valid (symmetric) correlation matrices and reading them back returns the same matrices, for every solver.", "quantifier": "all symmetric matrices of the right size, all solvers", "why_tests_cant": "infinite domain, several solvers", "anchors": ["hpelm/nnets/slfn.py:SLFN.set_corr", "hpelm/nnets/slfn_python.py:SLFNPython.get_corr"]}
{"id": "C17", "title": "Solving from a full or from a triangular covariance matrix is the same", "statement": "solve_corr() solves the symmetric system given by the covariance matrix, whether it is passed the full symmetric matrix (as structure selection and HPELM do) or its upper triangle (as solve() does), also when the matrix is rank deficient.", "quantifier": "all symmetric covariance matrices", "why_tests_cant": "rank-deficient matrices take a different branch that tests rarely reach", "anchors": ["hpelm/nnets/slfn_python.py:SLFNPython.solve_corr", "hpelm/nnets/slfn_skcuda.py:SLFNSkCUDA.solve_corr"]}
{"id": "C18", "title": "Weighted classification weights every sample by its class weight", "statement": "For one-hot targets, weighted training accumulates every sample's contribution multiplied by exactly the weight of its class, whatever the batch size.", "quantifier": "all one-hot datasets, weight vectors, batch sizes", "why_tests_cant": "all datasets and batchings", "anchors": ["hpelm/elm.py:ELM.add_data", "hpelm/nnets/slfn.py:SLFN.add_batch"]}
{"id": "C19", "title": "Automatic class weights balance the classes", "statement": "With automatic weights on one-hot data where every class occurs, every class receives the same total weight, equal to the number of samples.", "quantifier": "all one-hot datasets with all classes present", "why_tests_cant": "all datasets", "anchors": ["hpelm/elm.py:ELM.add_data", "hpelm/hp_elm.py:HPELM.add_data"]}
{"id": "C20", "title": "Sample weights cannot shift to other samples", "statement": "In weighted training a sample is never weighted with the class weight of another sample, for any target matrix the call accepts.", "quantifier": "all accepted target matrices", "why_tests_cant": "needs non-one-hot rows that happen to keep total counts equal", "anchors": ["hpelm/elm.py:ELM.add_data"]}
{"id": "C21", "title": "Conflicting training modes are rejected", "statement": "train() refuses any argument list naming more than one structure selection method or more than one classification kind, in any letter case, order or multiplicity, and classification flags when there is a single output; when it accepts, the classification kind in force is the one named (none if none is named).", "quantifier": "all argument lists", "why_tests_cant": "all lists of flags in all orders and cases", "anchors": ["hpelm/elm.py:ELM._train_parse_args"]}
{"id": "C22", "title": "Mode flags are case-insensitive", "statement": "Writing a training flag in a different letter case does not change what train() does.", "quantifier": "all flag lists and case variants", "why_tests_cant": "all case variants", "anchors": ["hpelm/elm.py:ELM.train", "hpelm/elm.py:ELM._train_parse_args"]}
{"id": "C23", "title": "Classification kind given to the constructor takes effect", "statement": "A classification kind accepted by the constructor (any letter case) is the one used by error() and by later training that names no kind itself.", "quantifier": "all constructor arguments and histories", "why_tests_cant": "interaction of constructor, letter case and later calls", "anchors": ["hpelm/elm.py:ELM.__init__", "hpelm/elm.py:ELM._train_parse_args", "hpelm/elm.py:ELM._error"]}
{"id": "C24", "title": "Data validation accepts exactly well-shaped data", "statement": "Data is accepted exactly when it is numeric, one- or two-dimensional, with the model's number of inputs/outputs as columns and equal numbers of samples; one-dimensional data is read as a single column, and accepted data is otherwise unchanged.", "quantifier": "all shapes and contents", "why_tests_cant": "all shapes", "anchors": ["hpelm/elm.py:ELM._checkdata"]}
{"id": "C25", "title": "Confusion matrix counts exactly, for every batch size", "statement": "For (weighted) classification entry (i,j) of the confusion matrix is the number of samples of true class i predicted as class j, for every batch size, and all entries together sum to the number of samples.", "quantifier": "all target/prediction matrices, all batch sizes", "why_tests_cant": "batch boundaries and sizes are unbounded", "anchors": ["hpelm/elm.py:ELM.confusion"]}
{"id": "C26", "title": "Multi-label confusion matrix counts label co-occurrence", "statement": "For multi-label classification entry (i,j) is the number of samples that have label i and are predicted label j, for every batch size.", "quantifier": "all target/prediction matrices, all batch sizes", "why_tests_cant": "as above", "anchors": ["hpelm/elm.py:ELM.confusion"]}
{"id": "C27", "title": "Classification error is the misclassified fraction and agrees with the confusion matrix", "statement": "The classification error is the number of samples whose predicted class differs from the true class divided by the number of samples, lies in [0,1], and equals one minus the confusion matrix trace over the number of samples.", "quantifier": "all target/prediction matrices", "why_tests_cant": "relation between two functions over all inputs", "anchors": ["hpelm/elm.py:ELM._error", "hpelm/elm.py:ELM.confusion"]}
{"id": "C28", "title": "Regression and multi-label errors are well-behaved", "statement": "The regression error is non-negative and zero exactly when predictions equal targets; the multi-label error is the fraction of wrong labels and lies in [0,1].", "quantifier": "all target/prediction matrices", "why_tests_cant": "infinite domain", "anchors": ["hpelm/elm.py:ELM._error"]}
{"id": "C29", "title": "Weighted classification error is a weighted average of per-class error rates", "statement": "With non-negative weights that are not all zero the weighted error lies in [0,1] and is zero exactly when no sample of a positively weighted class is misclassified.", "quantifier": "all targets, predictions and weights", "why_tests_cant": "infinite domain", "anchors": ["hpelm/elm.py:ELM._error"]}
{"id": "C30", "title": "Out-of-memory error equals in-memory error", "statement": "In exact arithmetic HPELM.error() returns the same value as ELM.error() on the same data, for every classification kind and every batch size.", "quantifier": "all data, batch sizes and kinds", "why_tests_cant": "all batch sizes and class distributions, including classes absent from the data", "anchors": ["hpelm/hp_elm.py:HPELM._error", "hpelm/elm.py:ELM._error"]}
{"id": "C31", "title": "Neuron-count search terminates and stays in range", "statement": "The neuron count search of validation/LOO/cross-validation terminates for every error curve and network size, only ever evaluates sizes between the smallest allowed size and the network size, and returns such a size.", "quantifier": "all network sizes and all error curves", "why_tests_cant": "a loop whose interval arithmetic goes out of order for some sizes; all curves", "anchors": ["hpelm/mss_v.py:train_v", "hpelm/mss_cv.py:train_cv", "hpelm/mss_loo.py:train_loo"]}
{"id": "C32", "title": "Selected size is the best one tried and no worse than the full network", "statement": "The selected number of neurons has the smallest penalised error of all sizes the search evaluated, in particular not larger than that of the full network.", "quantifier": "all network sizes and error curves", "why_tests_cant": "all curves", "anchors": ["hpelm/mss_v.py:train_v", "hpelm/mss_cv.py:train_cv", "hpelm/mss_loo.py:train_loo"]}
{"id": "C33", "title": "Search finds the optimum of unimodal curves", "statement": "When the penalised error first decreases and then increases with the number of neurons, the selected size is its minimum.", "quantifier": "all unimodal curves", "why_tests_cant": "needs all curves", "anchors": ["hpelm/mss_v.py:train_v"]}
{"id": "C34", "title": "Cross-validation folds partition the data", "statement": "In every cross-validation round the training, validation and test samples are disjoint and together are all samples; over all rounds every sample is used exactly once for validation and exactly once for testing.", "quantifier": "all dataset sizes and all k >= 3", "why_tests_cant": "all (N,k)", "anchors": ["hpelm/mss_cv.py:train_cv"]}
{"id": "C35", "title": "Cross-validation works for every network", "statement": "train(...,'CV',k) with k>=3 and enough data completes for every number of neurons.", "quantifier": "all network sizes", "why_tests_cant": "small networks hit a hard-coded lower bound", "anchors": ["hpelm/mss_cv.py:train_cv"]}
{"id": "C36", "title": "Cross-validation reports the test error of the selected model", "statement": "The error returned by train(...,'CV') is the test error of the selected (pruned) network size.", "quantifier": "all datasets", "why_tests_cant": "relation between two outputs over all inputs", "anchors": ["hpelm/mss_cv.py:train_cv"]}
{"id": "C37", "title": "PRESS is the exact leave-one-out error", "statement": "In exact arithmetic, for regression, the error LOO selection assigns to a neuron subset equals the mean squared error obtained by really retraining N times with one sample left out (same neurons, same regularisation).", "quantifier": "all datasets, all neuron subsets, positive regularisation", "why_tests_cant": "an algebraic identity over all real matrices", "anchors": ["hpelm/mss_loo.py:train_loo", "hpelm/elm.py:ELM._error"]}
{"id": "C38", "title": "Structure selection evaluates what it returns", "statement": "In exact arithmetic the correlation sub-matrices used to score a neuron subset are those of the network pruned to that subset, so the output weights used to score the selected size are the ones the finally returned model has (up to neuron order).", "quantifier": "all models, data and subsets", "why_tests_cant": "all subsets", "anchors": ["hpelm/mss_v.py:train_v", "hpelm/nnets/slfn.py:SLFN._prune"]}
{"id": "C39", "title": "Weighted classification survives structure selection", "statement": "With 'wc' and a structure selection method the returned model is the weighted solution.", "quantifier": "all datasets and weights", "why_tests_cant": "needs weights that matter", "anchors": ["hpelm/mss_v.py:train_v", "hpelm/mss_loo.py:train_loo", "hpelm/mss_cv.py:train_cv"]}
{"id": "C40", "title": "Neuron ranking is a list of distinct valid neurons", "statement": "The optimal-pruning ranking consists of distinct existing neurons, as many as requested (at most all), for every data matrix.", "quantifier": "all matrices and all kmax", "why_tests_cant": "all inputs", "anchors": ["hpelm/modules/mrsr.py:mrsr", "hpelm/modules/mrsr2.py:mrsr2", "hpelm/elm.py:ELM._ranking"]}
{"id": "C41", "title": "MRSR tries every sign combination", "statement": "The sign table used by MRSR contains every vector of signs for the outputs exactly once, and the first ranked neuron is one with the largest summed absolute correlation with the targets.", "quantifier": "all numbers of outputs, all data", "why_tests_cant": "2^p rows for every p", "anchors": ["hpelm/modules/mrsr.py:mrsr"]}
{"id": "C42", "title": "Ranges of on-disk data are processed exactly", "statement": "HPELM training/prediction with istart and icount processes exactly samples istart .. min(istart+icount, N)-1, each once and in order, for every batch size.", "quantifier": "all N, istart >= 0, icount, batch", "why_tests_cant": "all range/batch combinations", "anchors": ["hpelm/hp_elm.py:HPELM.add_data", "hpelm/hp_elm.py:HPELM.predict"]}
{"id": "C43", "title": "Out-of-memory training equals in-memory training", "statement": "In exact arithmetic HPELM.train on a range gives the same output weights as ELM.train on the sliced data.", "quantifier": "all models, data, ranges, batch sizes", "why_tests_cant": "as above", "anchors": ["hpelm/hp_elm.py:HPELM.train", "hpelm/hp_elm.py:HPELM.add_data", "hpelm/elm.py:ELM.train"]}
{"id": "C44", "title": "Out-of-memory prediction equals in-memory prediction", "statement": "HPELM.predict on a range returns exactly the in-memory predictions of those samples, for every batch size.", "quantifier": "all models, data, ranges, batch sizes", "why_tests_cant": "as above", "anchors": ["hpelm/hp_elm.py:HPELM.predict"]}
{"id": "C45", "title": "Out-of-memory projection equals in-memory projection", "statement": "HPELM.project on a range returns exactly the in-memory hidden representation of those samples, for every batch size.", "quantifier": "all models, data, ranges, batch sizes", "why_tests_cant": "as above", "anchors": ["hpelm/hp_elm.py:HPELM.project"]}
{"id": "C46", "title": "Incremental on-disk training equals one-shot training", "statement": "In exact arithmetic, feeding the parts of a dataset in any order with add_data(..., fHH, fHT) and then solve_corr(fHH, fHT) gives the same output weights as training on the whole dataset at once; the regulariser is counted exactly once.", "quantifier": "all splits into any number of parts, all orders", "why_tests_cant": "all partitions", "anchors": ["hpelm/hp_elm.py:HPELM.add_data", "hpelm/hp_elm.py:HPELM.solve_corr", "hpelm/modules/hdf5_tools.py:_prepare_fHH", "hpelm/modules/hdf5_tools.py:_write_fHH"]}
{"id": "C47", "title": "Parallel writers never lose a contribution", "statement": "When any number of processes run add_data with the same fHH, fHT files concurrently, then under every interleaving the files finally hold the start value plus the sum of all contributions.", "quantifier": "all numbers of processes, all interleavings, files present or absent at the start", "why_tests_cant": "interleavings cannot be enumerated by tests", "anchors": ["hpelm/modules/hdf5_tools.py:_prepare_fHH", "hpelm/modules/hdf5_tools.py:_write_fHH"]}
{"id": "C48", "title": "Crash of a parallel writer keeps the files consistent", "statement": "If writers crash at arbitrary points, each file holds the start value plus the sum of a subset of the contributions, and both files hold the same subset.", "quantifier": "all crash points and interleavings", "why_tests_cant": "crash points", "anchors": ["hpelm/modules/hdf5_tools.py:_write_fHH"]}
{"id": "C49", "title": "Asynchronous prediction is deadlock-free and equals synchronous prediction", "statement": "Under every scheduling of main process, reader and writer, predict_async terminates and the output file holds the same matrix as predict.", "quantifier": "all schedules, all N, ranges and batch sizes", "why_tests_cant": "schedules", "anchors": ["hpelm/hp_elm.py:HPELM.predict_async", "hpelm/modules/hdf5_tools.py:_ireader", "hpelm/modules/hdf5_tools.py:_iwriter"]}
{"id": "C50", "title": "Asynchronous training is deadlock-free and equals synchronous training", "statement": "Under every scheduling of main process and the two readers, add_data_async terminates having fed exactly the batches, in the order and pairing, of add_data.", "quantifier": "all schedules, all N, ranges and batch sizes", "why_tests_cant": "schedules", "anchors": ["hpelm/hp_elm.py:HPELM.add_data_async", "hpelm/modules/hdf5_tools.py:_ireader"]}
{"id": "C51", "title": "validation_corr selects consistently", "statement": "Each candidate network of validation_corr is the network of the first l neurons trained on the same data; the error reported for it is its error on the whole validation set for every batch size; afterwards the model consists of exactly the first best_l neurons with the weights of the best candidate.", "quantifier": "all models, data, candidate lists and batch sizes", "why_tests_cant": "all batch sizes", "anchors": ["hpelm/hp_elm.py:HPELM.validation_corr"]}
{"id": "C52", "title": "Saving and loading reproduces the model", "statement": "Loading a saved model into an ELM (default solver, same precision) yields a model with the same neurons, output weights, classification kind, class weights and regularisation, hence identical projections, predictions and errors, whatever the loading object held before.", "quantifier": "all models and all states of the loading object", "why_tests_cant": "all histories on both sides", "anchors": ["hpelm/elm.py:ELM.save", "hpelm/elm.py:ELM.load", "hpelm/elm.py:ELM.dumps", "hpelm/elm.py:ELM.loads", "hpelm/elm.py:ELM._update_from_output"]}
{"id": "C53", "title": "Loading works for every solver choice", "statement": "Loading a saved model into an object with any solver choice replaces the object's network by the saved one and keeps the object's solver.", "quantifier": "all solver choices, all prior states", "why_tests_cant": "combination of solver and prior state", "anchors": ["hpelm/elm.py:ELM._update_from_output"]}
{"id": "C54", "title": "Training continues identically after loading", "statement": "In exact arithmetic training or feeding data gives the same output weights after a save/load round trip as without it.", "quantifier": "all models and data", "why_tests_cant": "all histories", "anchors": ["hpelm/elm.py:ELM._update_from_output", "hpelm/nnets/slfn.py:SLFN.add_batch"]}
{"id": "C55", "title": "A crash while saving never destroys the stored model", "statement": "If the process crashes during save() to an existing model file, the file holds either the old or the new model.", "quantifier": "all crash points", "why_tests_cant": "crash points", "anchors": ["hpelm/elm.py:ELM.save"]}
{"id": "C56", "title": "HDF5 storage round-trips data", "statement": "Data written with make_hdf5 from an array is read back unchanged by the data reader (a vector as a single column); a shape tuple gives an all-zero array of that shape; the lines of a text file are read back in their order if all have the same number of values, and the call raises if a line has another number of values or something that is not a number.", "quantifier": "all arrays and shapes", "why_tests_cant": "all inputs", "anchors": ["hpelm/modules/hdf5_tools.py:make_hdf5", "hpelm/elm.py:ELM._checkdata"]}
{"id": "C57", "title": "Normalization parameters do not depend on the batch size", "statement": "In exact arithmetic the mean and standard deviation computed by normalize_hdf5 are the true column means and standard deviations, for every batch size.", "quantifier": "all data and batch sizes", "why_tests_cant": "all batch sizes", "anchors": ["hpelm/modules/hdf5_tools.py:normalize_hdf5"]}
{"id": "C58", "title": "normalize_hdf5 normalizes the file exactly once", "statement": "After normalize_hdf5(file) on fresh data every column of the file has mean 0 and standard deviation 1 (0 if it was constant), and repeating the call changes nothing.", "quantifier": "all data, batch sizes and repetitions", "why_tests_cant": "all data", "anchors": ["hpelm/modules/hdf5_tools.py:normalize_hdf5"]}
{"id": "C59", "title": "Every hidden output is the documented function of one sample and one neuron", "statement": "Entry (i, j) of project(X) is the output of neuron j on sample i: x.w+b for linear neurons, 1/(1+exp(x.w+b)) for sigmoid, tanh(x.w+b) for hyperbolic tangent, and exp(-d^2/b) for radial basis functions with the city block, euclidean or Chebyshev distance d between the sample and the centroid. Sigmoid and radial basis function outputs lie between 0 and 1, tanh between -1 and 1; a radial basis function neuron responds with 1 exactly at its centroid.", "quantifier": "all networks with any mix of neuron types, all weights, biases and data", "why_tests_cant": "ranges over all networks and all real data; a test compares a few numbers", "anchors": ["hpelm/nnets/slfn.py:SLFN._project", "hpelm/nnets/slfn.py:SLFN.__init__", "hpelm/elm.py:ELM.project"]}
{"id": "C60", "title": "GPU and CPU compute the same hidden layer for every order of the GPU threads", "statement": "With the GPU accelerator the hidden layer of every network and data set equals that of the CPU solver, whatever the freshly allocated GPU memory contains and in whatever order the threads of the sigmoid kernel run; the kernel changes no memory outside of the array it is applied to.", "quantifier": "all networks, data, block sizes, memory contents and interleavings of threads", "why_tests_cant": "thread schedules and memory layout cannot be enumerated by tests", "anchors": ["hpelm/nnets/slfn_skcuda.py:SLFNSkCUDA._project", "hpelm/nnets/slfn_skcuda.py:SLFNSkCUDA._dev_sigm"]}
{"id": "C61", "title": "Radial basis function parameters come from the data and are always found", "statement": "rbf_param never reads outside of the data, never compares a point with itself, and returns k centroids that are data points together with k positive widths; it returns for every data set as soon as enough random numbers have been drawn.", "quantifier": "all data sets, numbers of neurons and all random numbers", "why_tests_cant": "quantifies over all streams of random numbers; termination cannot be tested", "anchors": ["hpelm/modules/rbf_param.py:rbf_param"]}
{"id": "C62", "title": "validation_corr tries a proper grid of network sizes", "statement": "For at least three neurons and two steps, the numbers of neurons tried are strictly increasing, start with 3, end with the size of the network, and there are at most `steps` of them.", "quantifier": "all network sizes and numbers of steps", "why_tests_cant": "all sizes; a test tries a few", "anchors": ["hpelm/hp_elm.py:HPELM.validation_corr"]}
{"id": "C63", "title": "On-disk training leaves the model's own matrices intact", "statement": "After add_data with files for the correlation matrices, the model itself is what it would be after add_data without files on a model whose accumulated data was cleared: it can be solved or fed further in memory with the same result.", "quantifier": "all models, data, ranges and solvers", "why_tests_cant": "concerns aliasing of arrays for all data and solvers", "anchors": ["hpelm/hp_elm.py:HPELM.add_data", "hpelm/nnets/slfn.py:SLFN.get_corr"]}
{"id": "C64", "title": "Targets enter linearly and outputs are trained independently", "statement": "With the same neurons, inputs and regularisation, the predictions for one output depend only on the targets of that output - not on the number, order or values of other outputs - and if targets are a linear combination of other targets, so are the predictions, for all new inputs.", "quantifier": "all networks, data, targets, coefficients, solvers, batch sizes and new inputs", "why_tests_cant": "an algebraic identity over all real data", "anchors": ["hpelm/elm.py:ELM.train", "hpelm/elm.py:ELM.predict", "hpelm/nnets/slfn.py:SLFN.solve"]}
{"id": "C65", "title": "The order of neurons is irrelevant", "statement": "Two models that have the same neurons in a different order (for example because types were added in another order), trained on the same data in the same way, give the same predictions.", "quantifier": "all permutations of neurons, all data, solvers and kinds of training", "why_tests_cant": "quantifies over all permutations and real data", "anchors": ["hpelm/elm.py:ELM.add_neurons", "hpelm/elm.py:ELM.train", "hpelm/elm.py:ELM.predict"]}
{"id": "C66", "title": "More neurons never fit worse", "statement": "If all neurons of one model also occur in another one, and both are trained on the same data with the same regularisation, the penalised training error (squared error plus regularisation times squared output weights) of the larger model is at most that of the smaller one.", "quantifier": "all pairs of networks, data, solvers and kinds of training", "why_tests_cant": "an inequality over all real data and networks", "anchors": ["hpelm/elm.py:ELM.add_neurons", "hpelm/elm.py:ELM.train"]}
{"id": "C67", "title": "Stronger regularisation shrinks the weights and never lowers the training error", "statement": "For the same neurons and data, a larger norm parameter gives output weights of at most the same squared size and a training error of at least the same size.", "quantifier": "all networks, data and pairs of regularisation parameters", "why_tests_cant": "an inequality over all real data", "anchors": ["hpelm/elm.py:ELM.__init__", "hpelm/elm.py:ELM.train"]}
{"id": "C68", "title": "Sample weights mean repetition", "statement": "If the class weights give every sample a natural number as its weight, weighted training gives exactly the predictions of unweighted training on data in which every sample is repeated as often as its weight says.", "quantifier": "all data, networks and integer weights", "why_tests_cant": "an identity over all data", "anchors": ["hpelm/elm.py:ELM.add_data", "hpelm/nnets/slfn.py:SLFN.add_batch"]}
{"id": "C69", "title": "A call that raises leaves the model usable", "statement": "If a call on a model raises and the user catches the exception, the network's bookkeeping is still consistent (sizes of neurons, output weights and accumulated matrices agree), the model predicts what it predicted before, and a later train gives exactly what it would have given without the failed call.", "quantifier": "all histories of calls, successful or not, with all data and all points at which an exception can occur", "why_tests_cant": "quantifies over all histories with exceptions at any point", "anchors": ["hpelm/elm.py:ELM.add_data", "hpelm/elm.py:ELM.train", "hpelm/elm.py:ELM._update_from_output", "hpelm/nnets/slfn.py:SLFN.add_batch"]}
{"id": "C70", "title": "add_data is all or nothing", "statement": "If add_data raises, nothing has been added: the accumulated matrices are as they were before the call. Targets of a wrong shape are refused.", "quantifier": "all models, data and batch sizes", "why_tests_cant": "quantifies over all data and failure points", "anchors": ["hpelm/elm.py:ELM.add_data", "hpelm/nnets/slfn.py:SLFN.add_batch", "hpelm/nnets/slfn_python.py:SLFNPython.add_batch"]}
{"id": "C71", "title": "A call is not stopped by files left open by earlier calls", "statement": "A call on an out-of-memory model whose data and files are all in order succeeds, whatever calls were made before it in the same process: in particular results can be written again into a file after it was used to compute an error.", "quantifier": "all histories of calls on a model and its files, synchronous and asynchronous", "why_tests_cant": "depends on which file handles every earlier call left open", "anchors": ["hpelm/elm.py:ELM._checkdata", "hpelm/hp_elm.py:HPELM.predict", "hpelm/hp_elm.py:HPELM.add_data_async", "hpelm/modules/hdf5_tools.py:make_hdf5", "hpelm/modules/hdf5_tools.py:_write_fHH"]}
{"id": "C72", "title": "Deleting a model closes its files", "statement": "When a model is deleted, every HDF5 file that its calls opened is closed, including after calls that raised; the number of open files does not grow with the number of calls.", "quantifier": "all histories of calls, with exceptions at any point", "why_tests_cant": "depends on the history of calls and on every point where an exception can occur", "anchors": ["hpelm/elm.py:ELM.__del__", "hpelm/elm.py:ELM._checkdata", "hpelm/hp_elm.py:HPELM._checkcorr", "hpelm/hp_elm.py:HPELM.project"]}
{"id": "C73", "title": "Death of a helper process in asynchronous prediction", "statement": "If a helper process of predict_async is killed at any moment, the call ends with an exception or a complete output file; at no moment does the output file show a value that is not the right prediction or the initial zero.", "quantifier": "all moments at which the reader or the writer process dies, all interleavings, ranges and batch sizes", "why_tests_cant": "crash points and schedules of three processes; a test kills a process at one point only", "anchors": ["hpelm/hp_elm.py:HPELM.predict_async", "hpelm/modules/hdf5_tools.py:_ireader", "hpelm/modules/hdf5_tools.py:_iwriter"]}
{"id": "C74", "title": "Death of a reader process in asynchronous training", "statement": "If a reader process of add_data_async is killed at any moment, the call ends; if it returns, the model and the files are those of add_data, and a batch is added completely or not at all.", "quantifier": "all moments at which one or both readers die, all interleavings, ranges and batch sizes", "why_tests_cant": "crash points and schedules of three processes", "anchors": ["hpelm/hp_elm.py:HPELM.add_data_async", "hpelm/modules/hdf5_tools.py:_ireader"]}
{"id": "C75", "title": "Solving from shared files while other processes add to them", "statement": "solve_corr and validation_corr, run while other processes add their parts to the same files, see the two matrices of one set of parts: all parts that were finished before, none twice, none in only one of the matrices.", "quantifier": "all interleavings of the reading with any number of writers", "why_tests_cant": "a race between unsynchronised processes; a test sees one schedule", "anchors": ["hpelm/hp_elm.py:HPELM.solve_corr", "hpelm/hp_elm.py:HPELM.validation_corr", "hpelm/hp_elm.py:HPELM._checkcorr", "hpelm/modules/hdf5_tools.py:_write_fHH"]}
{"id": "C76", "title": "Order of samples in the evaluation", "statement": "error and confusion of the same predictions and targets do not depend on the order of the samples: permuting targets and predictions together gives the same number, the same matrix, or the same exception.", "quantifier": "all models, kinds, targets, predictions and permutations", "why_tests_cant": "a permutation of every length; a test fixes one order", "anchors": ["hpelm/elm.py:ELM.error", "hpelm/elm.py:ELM.confusion", "hpelm/elm.py:ELM._error"]}
{"id": "C77", "title": "Numbering of classes in the evaluation", "statement": "Renumbering the classes (the columns of targets and predictions, and the class weights) does not change the error, and renumbers the rows and columns of the confusion matrix.", "quantifier": "all models, kinds, data and renumberings", "why_tests_cant": "argmax ties and class indices; a test fixes one numbering", "anchors": ["hpelm/elm.py:ELM.error", "hpelm/elm.py:ELM.confusion"]}
{"id": "C78", "title": "Evaluation of joined data sets", "statement": "The confusion matrix of two data sets joined is the sum of their confusion matrices, and the error of the joined set is the average of the two errors weighted by the numbers of samples.", "quantifier": "all models, kinds and pairs of data sets", "why_tests_cant": "additivity over all sizes and batch boundaries", "anchors": ["hpelm/elm.py:ELM.error", "hpelm/elm.py:ELM.confusion"]}
{"id": "C79", "title": "What training explains", "statement": "After train, the weighted sum of squares of the targets equals the squared error on the training data plus the sum of squares of the predictions plus twice norm times the sum of squares of the output weights; so predictions never have more energy than the targets and the weights are bounded by the targets and norm.", "quantifier": "all networks, training data, weights and norm > 0", "why_tests_cant": "an identity over all data; floating tests check a handful", "anchors": ["hpelm/elm.py:ELM.train", "hpelm/nnets/slfn.py:SLFN.solve"]}
{"id": "C80", "title": "Leave-one-out error against training error", "statement": "The leave-one-out error of a model is never smaller than its mean squared error on the training data, for plain training and for the model returned by training with leave-one-out selection.", "quantifier": "all networks, data, norm > 0; all rankings of the full network", "why_tests_cant": "an inequality over all data and all selected subsets", "anchors": ["hpelm/elm.py:ELM.train", "hpelm/mss_loo.py:train_loo"]}
{"id": "C81", "title": "Stability of training", "statement": "Changing the targets of a training run changes the predictions on the training data, in sum of squares, at most by as much as the targets were changed, and the change of the output weights is bounded by it over twice norm.", "quantifier": "all networks, inputs, pairs of targets, norm > 0", "why_tests_cant": "continuity over all perturbations", "anchors": ["hpelm/elm.py:ELM.train", "hpelm/nnets/slfn.py:SLFN.solve"]}
{"id": "C82", "title": "Class weights in force are the ones given", "statement": "Class weights given to a model are the ones used: `train` with 'wc' and `w=` rejects a wrong number of weights, otherwise exactly the given weights, in the given order, are in force afterwards, with every selection method, in memory and on disk; without 'wc' no weights are in force; weights in force earlier have no influence. Weights given to the constructor are used as well.", "quantifier": "every flag list, keyword arguments, previous state, data, selection method and history of calls", "why_tests_cant": "the interplay of constructor, flags in any letter case and order, and earlier training has unboundedly many combinations; a test checks a few", "anchors": ["hpelm/elm.py:ELM.__init__", "hpelm/elm.py:ELM._train_parse_args", "hpelm/elm.py:ELM.add_data", "hpelm/hp_elm.py:HPELM.train"]}
{"id": "C83", "title": "Structure selection does nothing but choose neurons", "statement": "The model returned by training with structure selection consists of neurons of the original network, none used twice, and predicts exactly what a model with just these neurons predicts after plain (unweighted) training on the same data; validation data, number of folds, ranking and method influence the result only through the choice of the neurons.", "quantifier": "every data set, network, selection method, ranking, validation set, number of folds, random order, kind of problem and new input", "why_tests_cant": "leaks of validation data or stale state into the returned weights show only on particular data; equality with direct training is over all inputs", "anchors": ["hpelm/mss_v.py:train_v", "hpelm/mss_cv.py:train_cv", "hpelm/mss_loo.py:train_loo", "hpelm/nnets/slfn.py:SLFN._prune", "hpelm/elm.py:ELM.train"]}
{"id": "C84", "title": "Order of samples in structure selection", "statement": "Reordering the training samples, or the validation samples, changes neither the returned value nor the trained model, also when training selects neurons on a validation set, by leave-one-out or by cross-validation, with random or optimal-pruning ranking.", "quantifier": "all data, all reorderings, all networks, flags, rankings and kinds of problems, also when the call raises", "why_tests_cant": "all N! orders of all data sets; a difference shows only where an order-dependent intermediate value leaks into the ranking or the scores", "anchors": ["hpelm/mss_v.py:train_v", "hpelm/mss_loo.py:train_loo", "hpelm/mss_cv.py:train_cv", "hpelm/modules/mrsr.py:mrsr", "hpelm/modules/mrsr2.py:mrsr2", "hpelm/elm.py:ELM._ranking", "hpelm/elm.py:ELM._error"]}
{"id": "C85", "title": "Optimal pruning follows the sparse-regression path", "statement": "With optimal pruning ('OP'), neurons are kept in the order of multi-response sparse regression on the data used for ranking: starting from a zero fit, the next neuron is always one whose output is most correlated with the part of the targets not yet explained, and the fit then moves towards the least-squares fit of the neurons taken in, until a neuron outside is as correlated as those inside. The network returned consists of the first neurons of that order.", "quantifier": "all networks, data, selection methods (validation, cross-validation, leave-one-out), limits kmax and numbers of outputs for which the training call returns", "why_tests_cant": "the order is a property of a real-valued path determined by all samples, targets and neurons; tests can only compare against a second implementation on chosen data", "anchors": ["hpelm/modules/mrsr.py:mrsr", "hpelm/modules/mrsr2.py:mrsr2", "hpelm/elm.py:ELM._ranking", "hpelm/mss_v.py:train_v", "hpelm/mss_cv.py:train_cv", "hpelm/mss_loo.py:train_loo"]}
{"id": "C86", "title": "Selection by validation and by leave-one-out completes", "statement": "Training with neuron selection on a validation set or by leave-one-out returns without an exception for every network with at least one neuron and every non-empty data set of the right shape, with random and with optimal-pruning ranking.", "quantifier": "all networks, data sets, numbers of samples, neurons and outputs, kinds of problems and outcomes of the random ranking", "why_tests_cant": "the search visits data-dependent sizes and each score divides by leverages and inverts matrices; a crash needs a degenerate combination that samples miss", "anchors": ["hpelm/mss_v.py:train_v", "hpelm/mss_loo.py:train_loo", "hpelm/elm.py:ELM._error", "hpelm/elm.py:ELM._ranking", "hpelm/modules/mrsr.py:mrsr"]}
{"id": "C87", "title": "A selected network costs at most one percent of error", "statement": "The error of the network returned by a structure selection, measured the way the selection measures it (on the validation set, or by leave-one-out), is at most 1% larger than that of the same network trained without selection; if a fraction q of the neurons is kept, at most (1 - q)% larger.", "quantifier": "all networks, training and validation sets, kinds of problems, ranking methods and outcomes of the random ranking", "why_tests_cant": "the search looks at a data-dependent subset of the sizes and the bound must hold for whatever it ends on, on every data set", "anchors": ["hpelm/mss_v.py:train_v", "hpelm/mss_loo.py:train_loo", "hpelm/modules/myopt.py:myopt", "hpelm/elm.py:ELM.train"]}
{"id": "C88", "title": "The GPU accumulates the same training data as the CPU", "statement": "Adding a batch of (weighted) training data on the GPU adds to the correlation matrices exactly what the CPU solver adds, in double and in single precision, where the library routine is given row-major arrays as column-major ones and fills one triangle only; a batch that the CPU refuses is refused with the same exception.", "quantifier": "all networks, batches, sample weights, orders of the GPU threads, contents of fresh GPU memory and placements of the arrays in GPU memory", "why_tests_cant": "a wrong triangle, leading dimension or transposition shows only for some shapes and on hardware with a GPU; the order of threads and the memory layout are not under the control of a test", "anchors": ["hpelm/nnets/slfn_skcuda.py:SLFNSkCUDA.add_batch", "hpelm/nnets/slfn_skcuda.py:SLFNSkCUDA._project", "hpelm/nnets/slfn.py:SLFN.add_batch"]}
{"id": "C89", "title": "A training call that raises leaves no data behind", "statement": "If train raises and the exception is caught, the samples of the failed call do not influence later results of add_data and solve; what was fed before is either untouched or forgotten as a whole.", "quantifier": "all models, data, options, random choices and points of failure of a training call, and all later calls", "why_tests_cant": "failures can happen at every point of a training call, with every kind of structure selection", "anchors": ["hpelm/elm.py:train", "hpelm/elm.py:_train_parse_args", "hpelm/mss_loo.py:train_loo", "hpelm/mss_v.py:train_v", "hpelm/mss_cv.py:train_cv"]}
{"id": "C90", "title": "Constructor options take effect and stay in force", "statement": "The precision asked for by the constructor (a NumPy type, or any string mentioning double/64 or single/32 in any letter case), the accelerator, the numbers of inputs and outputs and the regularisation are the ones the model and its network work with after every history of calls; loading keeps the precision and the solver type of the loading object.", "quantifier": "every constructor call and every finite history of API calls", "why_tests_cant": "unit tests use two spellings and short histories; the statement ranges over all strings and histories", "anchors": ["hpelm/elm.py:ELM.__init__", "hpelm/elm.py:ELM._update_from_output", "hpelm/nnets/slfn.py:SLFN.__init__"]}
{"id": "C91", "title": "How the inputs are described does not matter", "statement": "Training and prediction depend on the inputs only through the outputs of the hidden neurons: giving the features in another order (with accordingly ordered weights), measuring them from another origin (with moved centres and changed biases), in other units (with scaled weights and changed biases), or adding features with zero weights (the last two for linear, sigmoid and tanh neurons) changes neither the exceptions, nor the output weights, the selected neurons and the returned values, nor any prediction, for every solver, kind of problem and selection method.", "quantifier": "all networks, data sets, training modes, feature orders, shifts, scales and numbers of additional features", "why_tests_cant": "a test can try a few orders and shifts on a few data sets; the statement ranges over all of them and over all training modes and outcomes of the random rankings", "anchors": ["hpelm/nnets/slfn.py:SLFN._project", "hpelm/elm.py:ELM.train", "hpelm/mss_v.py:train_v", "hpelm/mss_cv.py:train_cv", "hpelm/mss_loo.py:train_loo"]}
{"id": "C92", "title": "Leave-one-out selection compares leave-one-out errors, for every kind of problem", "statement": "The error that leave-one-out selection compares for a set of neurons is the error, in the measure of the problem (misclassification rate, fraction of wrong labels, mean squared error), of the leave-one-out predictions: each sample predicted by the network trained without it. It is never smaller than the error of the trained model on its training data.", "quantifier": "all networks, data sets, kinds of unweighted problems, rankings and neuron subsets", "why_tests_cant": "tests compare numbers on a few data sets; that the shortcut formula equals refitting without each sample, for every data set and every neuron subset, is an algebraic identity (and false for classifiers)", "anchors": ["hpelm/elm.py:ELM._error", "hpelm/mss_loo.py:train_loo"]}
{"id": "C93", "title": "What class weights do", "statement": "In weighted classification only the ratio of class weights to regularisation matters: multiplying all class weights and the regularisation parameter by the same positive factor changes no prediction, and equal weights are the same as unweighted training with accordingly divided regularisation. Raising the weight of one class, everything else equal, never makes the squared error on the training samples of that class larger.", "quantifier": "all networks, data sets with one-hot targets, class weights, factors and solvers", "why_tests_cant": "tests try a few weight vectors on a few data sets; the statement compares the results of two trainings for all data, weights and factors", "anchors": ["hpelm/elm.py:ELM.train", "hpelm/elm.py:ELM.add_data", "hpelm/nnets/slfn_python.py:SLFNPython.add_batch", "hpelm/nnets/slfn.py:SLFN.add_batch"]}
{"id": "C94", "title": "Arrays passed to the model are not changed and not kept", "statement": "In any program over one network (creating arrays, writing into its own arrays, add_batch, solve, get/set of matrices and weights, projection, prediction, pruning, adding neurons, storing matrices), an array created by the program always contains what the program last wrote into it, and the state and results of the network are those obtained when every matrix is a value read at the time of the call.", "quantifier": "all programs of any length, all contents, all solvers, all points where a call raises; the program writes only into arrays it created or got as projections and predictions", "why_tests_cant": "whether a call keeps a reference to an argument or changes it in place shows only in particular later histories", "anchors": ["hpelm/nnets/slfn.py:add_batch", "hpelm/nnets/slfn.py:set_corr", "hpelm/nnets/slfn.py:set_B", "hpelm/nnets/slfn_python.py:add_batch", "hpelm/nnets/slfn_skcuda.py:add_batch", "hpelm/hp_elm.py:add_data"]}
{"id": "C95", "title": "Arrays returned by the model are independent of it", "statement": "An array returned by the model (projection, prediction, output weights, correlation matrices) keeps its contents whatever is called later, and writing into it does not change the model.", "quantifier": "all programs before and after the call that returned the array, all solvers", "why_tests_cant": "sharing shows only when a particular later call changes the array in place", "anchors": ["hpelm/nnets/slfn.py:get_corr", "hpelm/nnets/slfn_python.py:get_corr", "hpelm/nnets/slfn_skcuda.py:get_corr", "hpelm/nnets/slfn.py:get_B"]}
{"id": "C96", "title": "Rounding errors of accumulated training data are bounded, whatever the batches", "statement": "In floating-point arithmetic with unit roundoff u, after feeding N samples in any batches, with any solver, and with every sum formed in any order and association (with or without fused multiply-add), each entry of the matrices returned by get_corr differs from the exact entry (the norm on the diagonal plus the weighted sum of products) by at most (1+u)^(N+k)-1 times the sum of absolute values (k at most 6). Hence two ways of splitting and ordering the same samples agree up to twice that bound (and need not agree bit for bit), and the diagonal of HH stays positive while (1+u)^(N+5) < 2. With a rounding that changes nothing the computation is exactly the exact one.", "quantifier": "all roundings with relative error u, networks, solvers, precisions, batch sequences, class weights, summation orders", "why_tests_cant": "the order of summation belongs to BLAS, threads and hardware; a test sees one order on one machine and one data set", "anchors": ["hpelm/nnets/slfn.py:add_batch", "hpelm/nnets/slfn_python.py:add_batch", "hpelm/nnets/slfn_skcuda.py:add_batch", "hpelm/nnets/slfn.py:get_corr", "hpelm/elm.py:add_data"]}
{"id": "C97", "title": "Rounding errors of predictions and of the mean squared error are bounded", "statement": "In floating-point arithmetic with unit roundoff u and any order of summation, every predicted value differs from the exact weighted sum of the L computed hidden outputs by at most (1+u)^L-1 times the sum of absolute values, and the mean squared error over m target values is accurate to the relative error (1+u)^(m+3)-1. With a rounding that changes nothing both are the exact values.", "quantifier": "all roundings, networks, hidden layer outputs, targets, predictions and summation orders", "why_tests_cant": "the order of summation is not under the control of a test, and the bound must hold for all sizes and values", "anchors": ["hpelm/nnets/slfn.py:_predict", "hpelm/elm.py:_error", "hpelm/elm.py:predict"]}
{"id": "C98", "title": "Distance of computed output weights from the best ones is bounded by the residual", "statement": "With a positive norm the weighted regularised least-squares problem of the fed samples has exactly one best set of output weights. Whatever weights W a linear algebra library computed from the accumulated HH and HT, norm times the distance of W from the best weights is at most the length of the vector of the residuals |HH W - HT| plus the rounding errors of accumulation; the residual can be computed from get_corr and get_B. Predictions made with W differ from those of the best weights by at most that distance times the length of the sample's hidden layer output plus the rounding errors of the prediction; hence two runs on the same samples with other batches, orders or solvers agree up to the sum of their two bounds.", "quantifier": "all roundings, networks, solvers, batch sequences, class weights and computed weights W", "why_tests_cant": "the exact solution is not available to a test; the bound must hold for ill-conditioned data and every library", "anchors": ["hpelm/nnets/slfn.py:add_batch", "hpelm/nnets/slfn.py:solve_corr", "hpelm/nnets/slfn.py:get_corr", "hpelm/nnets/slfn.py:get_B"]}
{"id": "C99", "title": "Parallel writers leave what some order of them would leave", "statement": "When several processes run add_data with the same fHH and fHT files and no process re-creates a file that another one has just created, then, bit for bit and although floating-point addition is neither associative nor commutative, each file ends up with what the processes would have left had they run one after another in some order: no interleaving produces a value that no order produces. Every order can happen, so the files may differ between two executions on the same data, but each cell stays within the rounding error of n additions of the exact sum. Processes that die outside the writing of a file either count as a whole or not at all for that file.", "quantifier": "every number of processes, file size, contribution, start content, interleaving, crash point outside writing, every addition (no algebraic law assumed), every unit roundoff", "why_tests_cant": "The outcome depends on the schedule of several processes and on the rounding of each addition; tests see a few schedules and compare with a tolerance.", "anchors": ["hpelm/hp_elm.py:add_data", "hpelm/modules/hdf5_tools.py:_write_fHH", "hpelm/modules/hdf5_tools.py:_prepare_fHH"]}
{"id": "C100", "title": "Documented calls work", "statement": "Once a model has neurons of the documented types, every training call that follows the documentation (fitting shapes, at least one sample, at most one kind of classification and that only with several outputs, for weighted classification one class per sample and usable weights) completes without an exception. After it, predict works for every data set with the right number of features and returns one row per sample and one column per output, and error against any targets of that shape returns a number that is not negative.", "quantifier": "every creation of a model, history of successful calls with documented neuron types, documented training call without structure selection, input data set and target data set", "why_tests_cant": "Whether some combination of options, history and data raises an exception depends on all of them together; tests try a few combinations.", "anchors": ["hpelm/elm.py:train", "hpelm/elm.py:predict", "hpelm/elm.py:error", "hpelm/elm.py:_train_parse_args", "hpelm/elm.py:add_data", "hpelm/nnets/slfn.py:solve"]}
{"id": "C101", "title": "What a network can represent, it learns", "statement": "If the targets are a linear function of the outputs of the model's neurons, then after training every output's (weighted) sum of squared training errors is at most a quarter of the regularisation parameter times the sum of squares of the coefficients, so it vanishes with the regularisation; a new sample whose neuron outputs are a linear combination of those of the training samples is predicted with an error bounded the same way. In particular a model with default linear neurons for all inputs, besides any others, learns every linear function of the inputs: error() on the training data is at most norm/4 times the squared coefficients over the number of target values. The bound is attained, so targets are in general not reproduced exactly.", "quantifier": "every network, data set, linear function, regularisation parameter, kind of plain training (for new samples: unweighted), solver and number of further neurons", "why_tests_cant": "A bound for every linear function and every network needs a proof; tests check a tolerance on some generated data.", "anchors": ["hpelm/elm.py:train", "hpelm/elm.py:add_neurons", "hpelm/elm.py:error", "hpelm/nnets/slfn.py:solve"]}
{"id": "C102", "title": "Documented calls on data on disk work", "statement": "Once an out-of-memory model has neurons of the documented types, after any history of successful calls on data in memory and on disk, every documented train call on a range of data given as arrays or HDF5 files completes. After it predict works for every non-empty range of every data set with the right number of features, both into memory and into a file, with the same result of one row per sample and one column per output, and error of these predictions against any targets of that shape returns a number that is not negative (for weighted classification: if every class occurs among the targets).", "quantifier": "every creation of an HPELM model, history of successful calls with documented neuron types, files, documented training call and range, prediction data set and range, and target data set", "why_tests_cant": "Completion depends on options, history, ranges, batch boundaries and files together; tests try a few combinations.", "anchors": ["hpelm/hp_elm.py:train", "hpelm/hp_elm.py:predict", "hpelm/hp_elm.py:error", "hpelm/hp_elm.py:add_data", "hpelm/hp_elm.py:_error"]}
{"id": "C103", "title": "The printed description tells the make-up of the model", "statement": "str(model) of two models built by any histories of calls is the same text exactly when they have the same numbers of inputs and outputs and the same neuron types, in the same order, with the same numbers of neurons of each: nothing is lost when the last separator is cut, and no two different make-ups print alike.", "quantifier": "all pairs of constructor calls and histories of calls that did not raise (NumPy functions given as types having names without commas)", "why_tests_cant": "injectivity over unbounded numbers, lists of types and histories", "anchors": ["hpelm/elm.py:ELM.__str__", "hpelm/nnets/slfn.py:SLFN.add_neurons"]}
{"id": "C104", "title": "Normalization parameters in floating-point arithmetic", "statement": "normalize_hdf5 without parameters, computed in double precision with any batch size and any order of summation, returns column means and standard deviations that are numbers; the means differ from the exact ones by no more than the rounding errors of the sums, whatever the batches, and the variances by no more than rounding errors relative to the mean square of the column.", "quantifier": "all data, batch sizes, rounding functions with a unit roundoff and orders of summation", "why_tests_cant": "unbounded data and every order of summation; the failure needs particular rounding errors", "anchors": ["hpelm/modules/hdf5_tools.py:normalize_hdf5"]}
{"id": "C105", "title": "Leave-one-out errors in floating-point arithmetic", "statement": "In training with LOO every sample's leave-one-out error is a number: the divisor computed in working precision differs from 1 - h P h' only by rounding errors and does not vanish.", "quantifier": "all hidden layer outputs, computed inverses, rounding functions with a unit roundoff and orders of summation", "why_tests_cant": "unbounded data and every order of summation; the failure needs particular rounding errors", "anchors": ["hpelm/mss_loo.py:train_loo", "hpelm/elm.py:ELM._error"]}
{"id": "C106", "title": "Progress reports", "statement": "During calls on data on disk a line is printed after a batch if and only if more than tprint seconds have passed since the last line, so lines are never closer than tprint seconds. The line counts the batches done (never more than there are) and shows the remaining time estimated from the mean time per batch as hours, minutes and seconds; after the last batch it is zero.", "quantifier": "all clocks that never go back, numbers of batches and values of tprint, calls with and without helper processes", "why_tests_cant": "every sequence of clock readings", "anchors": ["hpelm/hp_elm.py:HPELM.add_data", "hpelm/hp_elm.py:HPELM.predict", "hpelm/hp_elm.py:HPELM.project", "hpelm/hp_elm.py:HPELM.validation_corr", "hpelm/hp_elm.py:HPELM.add_data_async", "hpelm/hp_elm.py:HPELM.predict_async"]}
{"id": "C107", "title": "Normalization of a file can be interrupted, repeated and undone", "statement": "If the process dies at any moment while normalize_hdf5 applies given parameters, every row of the file is either the original row or normalized exactly once; repeating the call completes the normalization. A finished normalization is undone by a second call with means -mean/std and deviations 1/std made from the returned parameters.", "quantifier": "all data, parameters, batch sizes and crash points, including crashes in the middle of writing a batch", "why_tests_cant": "crash points between and within batches multiply with data and batch sizes; the state found after a crash is not produced by any complete call", "anchors": ["hpelm/modules/hdf5_tools.py:normalize_hdf5"]}
{"id": "C108", "title": "Files named in add_data receive the matrices", "statement": "HPELM.add_data with fHH and/or fHT adds the accumulated matrices to the named files: a new file then contains exactly the matrix of get_corr, an existing one the sum (HH without its regularisation); no other file changes.", "quantifier": "all models, solvers, data, ranges, file names and earlier contents", "why_tests_cant": "ranges over all file contents, histories and combinations of names", "anchors": ["hpelm/hp_elm.py:HPELM.add_data", "hpelm/modules/hdf5_tools.py:_prepare_fHH", "hpelm/modules/hdf5_tools.py:_write_fHH"]}
{"id": "C109", "title": "Training continued with more data", "statement": "Calling train on a first part of the data and then add_data and nnet.solve on a second part gives exactly the model that train on both parts together gives (regression, classification and multi-label always; weighted classification with given weights). If the first model already predicts the second part exactly, its output weights do not change. Otherwise either the output weights do not change or the (weighted) squared error on the second part becomes strictly smaller.", "quantifier": "all networks, data sets, batch sizes, kinds of problem, solvers", "why_tests_cant": "a test continues training on a few data sets; that the new data can never be fitted worse is a statement about every data set and network", "anchors": ["hpelm/elm.py: ELM.train, ELM.add_data, ELM.predict", "hpelm/nnets/slfn.py: SLFN.add_batch, SLFN.solve"]}
{"id": "C110", "title": "A prediction or projection into a file can be interrupted and repeated", "statement": "If HPELM.predict (or project, of samples from the first one on) into a file dies at any point, the file is as before, or unreadable, or an array of the final shape whose values are each the right prediction or zero, the right ones first; repeating the call gives the complete result whatever was left; a result that an earlier call left in that file is still there.", "quantifier": "all models, data, ranges, batch sizes, crash points (also within a batch), previous contents of the file", "why_tests_cant": "a test cannot kill the process at every point and for every file", "anchors": ["hpelm/hp_elm.py: HPELM.predict", "hpelm/modules/hdf5_tools.py: make_hdf5"]}
{"id": "C111", "title": "Files of a rejected call, and files that do not fit", "statement": "solve_corr works exactly when the network has neurons and the two named files hold arrays of the right shapes (neurons x neurons, neurons x outputs); validation_corr and add_data with file names work only then (for add_data: where the files exist). An add_data call that raises leaves the files as they were: every file keeps its contents, and repeating the call correctly gives the same model and files as if the rejected call had not been made.", "quantifier": "all models, files, data arguments, ranges and reasons for which the call raises (wrong data, wrong shapes, empty range, zero batch size, unusable class weights)", "why_tests_cant": "the state of the disk after an exception depends on the point of the call at which it occurs and on which files existed; tests check that the exception is raised, not what it leaves behind", "anchors": ["hpelm/modules/hdf5_tools.py: _prepare_fHH, _write_fHH", "hpelm/hp_elm.py: HPELM.add_data, HPELM.solve_corr, HPELM.validation_corr, HPELM._checkcorr"]}
{"id": "C112", "title": "The documented parallel workflow, end to end", "statement": "Following the documentation page on parallel training gives the model that training in memory gives: write X and T to HDF5 files, make a model with neurons and save it; in any number of separate processes load the model and add_data a range of the samples into the same two files; in another process load the model, solve_corr, save; in another one load, predict into a file, compute the error. If every sample is in exactly one range, all the steps succeed whenever training the same neurons in memory on X, T succeeds, the predictions written are exactly those of the model trained in memory, and the error computed from the files is its training error.", "quantifier": "all data, models (regression, classification, weighted classification with given weights), numbers of scripts, ranges that partition the samples, orders of the scripts, batch sizes and precisions of the objects, file names, contents of the rest of the disk", "why_tests_cant": "the workflow composes eight API calls over several processes and five files; a test runs one partition in one order, and the printed example itself is not run by any test", "anchors": ["docs/parallel.rst", "hpelm/hp_elm.py: HPELM.add_data, HPELM.solve_corr, HPELM.predict", "hpelm/elm.py: ELM.save, ELM.load, ELM.error", "hpelm/modules/hdf5_tools.py: make_hdf5"]}
{"id": "C113", "title": "Scripts that add their parts at the same time train the model of all the data", "statement": "Documentation page on parallel training, with the scripts of step 3 run at the same time: put the data on the disk, save the model, start any number of scripts that each load the model and call add_data on one range with the same pair of files, such that every sample is in exactly one range. However the operating system interleaves their reads and writes of the two files, when they have all ended solve_corr, save, load and predict give exactly the predictions of the model trained in memory on all the data.", "quantifier": "all models, data, numbers of scripts, ranges, batch sizes, and all interleavings of the file operations of the scripts", "why_tests_cant": "The order of the file operations of several processes is chosen by the operating system; a test sees one order.", "anchors": ["hpelm/hp_elm.py:HPELM.add_data", "hpelm/hp_elm.py:HPELM.solve_corr", "hpelm/modules/hdf5_tools.py:_prepare_fHH", "hpelm/modules/hdf5_tools.py:_write_fHH", "docs/parallel.rst"]}
{"id": "C114", "title": "Running the scripts that died once more completes parallel training", "statement": "Several scripts run add_data on different ranges with the same pair of files at the same time, and some of them are killed. Running exactly the killed scripts once more (no others) completes the training: when they have ended, solve_corr and predict give the predictions of the model trained in memory on all the data.", "quantifier": "all models, data, ranges, numbers of scripts, interleavings, sets of scripts that die and moments at which they die", "why_tests_cant": "Ranges over all moments at which processes can be killed, combined with all interleavings; a test kills a process at one moment.", "anchors": ["hpelm/hp_elm.py:HPELM.add_data", "hpelm/modules/hdf5_tools.py:_prepare_fHH", "hpelm/modules/hdf5_tools.py:_write_fHH", "docs/parallel.rst"]}
{"id": "C115", "title": "Output weights and predictions are made of the training residuals", "statement": "After training with positive regularisation, norm times the output weight of a neuron equals the (weighted) sum over the training samples of the neuron's output times the residual of the sample, and norm times the prediction for any new input equals the (weighted) sum over the training samples of the residual times the inner product of the neuron outputs of the new input and of the sample. So a neuron that is silent on the training data gets weight zero, neurons that agree on the training data get equal weights, and neurons that nearly agree get nearly equal weights.", "quantifier": "every network, training set, kind of (weighted or unweighted) training without selection, solver, batch size, new input and pair of neurons", "why_tests_cant": "an identity over all real data and networks", "anchors": ["hpelm/elm.py:ELM.train", "hpelm/elm.py:ELM.predict", "hpelm/elm.py:ELM.project", "hpelm/nnets/slfn.py:SLFN.solve"]}
{"id": "C116", "title": "Predictions change gradually and stay bounded", "statement": "If the features of two data sets differ by at most delta, the outputs of every neuron differ by at most delta times a constant computed from its parameters: the sum of the absolute weights of a linear or tanh neuron, a quarter of that for a sigmoid neuron, and n/sqrt(b), sqrt(n)/sqrt(b), 1/sqrt(b) for a radial basis function of width b > 0 over n features with the L1, L2 or Linf distance. Hence predictions differ by at most delta times the sum of those constants times the absolute output weights. A model without linear neurons (and with positive widths) never predicts a value beyond the sum of the absolute output weights of that output, however far the input is from the training data.", "quantifier": "for every model, every two data sets, every delta, every sample and output", "why_tests_cant": "the bound holds for all inputs, in particular for inputs far from any that a test could list; sampling can only find violations", "anchors": ["hpelm/nnets/slfn.py: SLFN._project, SLFN._predict", "hpelm/nnets/slfn_python.py: SLFNPython._project", "hpelm/elm.py: ELM.predict"]}
{"id": "C117", "title": "Conversion of data to an HDF5 file that fails or is interrupted", "statement": "make_hdf5 never changes any other file. A call rejected because of its arguments (compression level, unknown kind of data, wrong number of dimensions, empty text file, first line not numeric) leaves the target file as it was. Wanted but false: a call that raises leaves the target file as it was; in fact a text file with a bad line in the middle raises and leaves a data file holding exactly the lines before the bad one, accepted as data from then on. If the process is killed during a call that would have succeeded, the target is the old file, has no array, holds the first rows of the data, or has the shape of the data with every value being the right one or 0. Repeating the conversion gives the same outcome and the same files as if it had been run once, whatever an earlier one left.", "quantifier": "for every kind and content of data, every earlier contents of the files and every moment of interruption", "why_tests_cant": "crash points and positions of bad lines cannot be enumerated; tests look at successful calls", "anchors": ["hpelm/modules/hdf5_tools.py: make_hdf5", "hpelm/elm.py: ELM._checkdata"]}
{"id": "C118", "title": "The demonstration script reports the library's own error", "statement": "bin/elm_naive.py completes for every data set with 4 features, 3 classes and at least one sample, whatever random weights are drawn; the percentage it prints (before rounding to one decimal) is 100 times the classification error that error() reports for the same predictions, lies between 0 and 100, and is 100 times the fraction of samples whose predicted class differs from the true one.", "quantifier": "for every data set of that shape and all random draws of weights and biases", "why_tests_cant": "random weights and data sets cannot be enumerated", "anchors": ["bin/elm_naive.py", "hpelm/elm.py: ELM.train, ELM.predict, ELM.error"]}
{"id": "C119", "title": "How normalization parameters are given", "statement": "normalize_hdf5(file, mean, std) normalizes the file with the parameters it is given, whatever kind of sequence holds them, does not change the caller's objects, and leaves a file alone that it refuses to normalize.", "quantifier": "all files, all parameters of any length, given as array, list or tuple, both or one alone, all batch sizes", "why_tests_cant": "A test uses one kind of sequence and one data set; the property ranges over all data, parameters and kinds of objects, and the failure for lists needs a first standard deviation other than 1 to show.", "anchors": ["hpelm/modules/hdf5_tools.py:normalize_hdf5"]}
{"id": "C120", "title": "What regularisation costs", "statement": "After train, no other output weights W fit the training data better than the trained model by more than half the regularisation parameter times the squared size of W (per output, weighted squared error; for regression also in the reported error()), and outputs of weights that fit equally well are close to the predictions. Two choices of the parameter give predictions on the training data whose squared difference is at most half the larger parameter times the squared size of the weights found with the smaller one.", "quantifier": "all networks, data sets, competing output weights, regularisation parameters, solvers, kinds of plain training", "why_tests_cant": "The competing weights range over a continuum and the data over all data sets; tests compare with one competitor on one data set.", "anchors": ["hpelm/elm.py:ELM.train", "hpelm/nnets/slfn_python.py:SLFNPython.solve_corr", "hpelm/nnets/slfn.py:SLFN.solve_corr"]}
{"id": "C121", "title": "A negative start of a range counts from the end", "statement": "In the out-of-memory calls that take a range (`add_data`, `predict`, `error`), a negative start -m means the sample m before the end, as everywhere in Python: the call does what it does with the start N - m. In the training calls a negative start means the beginning of the data.", "quantifier": "all models, data in memory or in files, batch sizes, negative starts, counts; for parallel training, all schedules", "why_tests_cant": "the outcome depends on how start, count, batch size and number of samples fall together, and for most tests (small ranges inside the data) nothing shows", "anchors": ["hpelm/hp_elm.py:HPELM.train", "hpelm/hp_elm.py:HPELM.add_data", "hpelm/hp_elm.py:HPELM.predict", "hpelm/hp_elm.py:HPELM.error", "hpelm/hp_elm.py:HPELM._error", "hpelm/hp_elm.py:HPELM.train_async"]}
{"id": "C122", "title": "Ranking for ten or more outputs", "statement": "The ranking used by optimal pruning with ten or more outputs follows the same method as for fewer outputs, with the Euclidean norm of the correlations over the outputs: the first neuron is the one most correlated with the targets, and each next one is the first to catch up while the fit moves towards the least-squares fit of the neurons taken in so far.", "quantifier": "all data, numbers of outputs and limits kmax for which the ranking is returned; all correct square roots, root finders and linear solvers", "why_tests_cant": "the order depends on a real-valued path; wrong orders are still valid rankings and look plausible on any data", "anchors": ["hpelm/modules/mrsr2.py:mrsr2", "hpelm/elm.py:ELM._ranking"]}
{"id": "C123", "title": "Units and sign of the targets do not matter", "statement": "In regression, training on targets that are all multiplied by the same positive or negative number (the validation targets as well, if given) raises the same exception or none as training on the original targets. If none, the same neurons are kept by every kind of structure selection (validation set, cross-validation, leave-one-out; neurons ranked at random or by optimal pruning), a returned error is multiplied by the square of the number, and every prediction is multiplied by the number.", "quantifier": "all models with any solver, neurons, data, factors other than zero, batch sizes, argument lists without a classification flag, keyword arguments, shuffles and new inputs", "why_tests_cant": "the selection compares computed errors with each other and with the marker -1 of errors not computed yet, and ranks neurons step by step: a test with two scales cannot show that no scale changes any of these comparisons", "anchors": ["hpelm/elm.py: train, _ranking, _error", "hpelm/modules/mrsr.py: mrsr", "hpelm/modules/mrsr2.py: mrsr2", "hpelm/mss_v.py: train_v", "hpelm/mss_cv.py: train_cv", "hpelm/mss_loo.py: train_loo"]}
{"id": "C124", "title": "A normalization call that raises leaves the file usable", "statement": "If normalize_hdf5 raises, for example because of a vector of the wrong length, a batch size of zero or a mistyped file name, then no file has been created, other files are not affected, and once the cause is corrected the file can be used in the same session.", "quantifier": "all sets of existing files and open files, file names, exceptions raised while the file is open, and later histories of calls", "why_tests_cant": "the failure shows in a later call, after any number of other calls: a test of the failing call alone, or in a session that ends with it, passes", "anchors": ["hpelm/modules/hdf5_tools.py: normalize_hdf5, make_hdf5", "hpelm/elm.py: _checkdata", "hpelm/hp_elm.py: _checkcorr"]}
{"id": "C125", "title": "The number that marks a class does not matter", "statement": "In classification with one class per sample and without class weights, training with the classes marked by any positive number instead of 1 (more generally with all targets, and the validation targets if given, multiplied by the same positive number) raises the same exception or none as training with the original targets. If none, the same neurons are kept by every kind of structure selection, the returned error is the same, and every new sample is assigned the same class.", "quantifier": "all models with any solver, neurons, data, positive factors, batch sizes, argument lists with the flag C and without another kind of problem, keyword arguments, shuffles and new inputs", "why_tests_cant": "the ranking and the search compare numbers computed from the targets step by step: a test with two codings cannot show that no coding changes any comparison, and the regularisation does not change with the coding", "anchors": ["hpelm/elm.py: train, _ranking, _error", "hpelm/modules/mrsr.py: mrsr", "hpelm/modules/mrsr2.py: mrsr2", "hpelm/mss_v.py: train_v", "hpelm/mss_cv.py: train_cv", "hpelm/mss_loo.py: train_loo"]}
