{"id": "C01", "title": "Batched download returns every event exactly once, in order", "statement": "For every FDSN server whose result list is finite and every batch_size >= 1, FDSNWSEventClient.get_events(batch_size=...) issues batches whose concatenation is exactly the server's result list: no event lost, none duplicated, order kept. The number of batch requests is ceil(N/batch_size), and 1 if the server has no event.", "quantifier": "all event counts N, all batch sizes >= 1", "why_tests_cant": "the probing loop (doubling, then bisection) runs a data dependent number of steps; a test fixes a handful of N", "anchors": ["seismostats/catalogs/client.py:FDSNWSEventClient._get_batch_count", "seismostats/catalogs/client.py:_get_batch_params", "seismostats/catalogs/client.py:_get_events_batched"]}
{"id": "C02", "title": "Batch probing terminates, with logarithmically many probes", "statement": "For batch_size >= 1 the probing of get_events(batch_size=...) stops after a number of existence requests bounded by 2*log2(N/batch_size)+const; for batch_size = 0 and a non-empty result it never stops.", "quantifier": "all event counts and batch sizes", "why_tests_cant": "termination cannot be observed by a test, neither can non-termination", "anchors": ["seismostats/catalogs/client.py:_get_batch_count"]}
{"id": "C03", "title": "Request parameters are exactly the ones asked for", "statement": "Every filter given as None is absent from the request, every other filter is sent with its value; minmagnitude is min_magnitude - delta_m/2 (min_magnitude if delta_m is None); extra keyword arguments override the named ones; nothing remains from a previous call on the same client; batched requests carry the same parameters plus limit/offset.", "quantifier": "all combinations of optional arguments and all call histories of one client", "why_tests_cant": "2^11 combinations of optional arguments times unboundedly many histories", "anchors": ["seismostats/catalogs/client.py:get_events"]}
{"id": "C04", "title": "Options behave as a store with a fixed key set", "statement": "get_option returns the value of the last successful set_option with that key (default if none); an unknown key raises KeyError on both and changes nothing; setting one option leaves the others alone.", "quantifier": "all sequences of set_option/get_option calls", "why_tests_cant": "quantifies over call histories", "anchors": ["seismostats/utils/_config.py:set_option", "seismostats/utils/_config.py:get_option"]}
{"id": "C05", "title": "Binning rounds to the nearest multiple, halves up", "statement": "bin_to_precision(x, delta) with delta >= 1e-12 returns, entry by entry, an integer multiple of delta at distance at most (1/2+1e-12)*delta from x; an x half way between two multiples goes to the upper one; NaN stays NaN; delta < 1e-12 raises ValueError.", "quantifier": "all arrays and all decimal bin sizes", "why_tests_cant": "universally quantified over reals", "anchors": ["seismostats/utils/binning.py:bin_to_precision", "seismostats/utils/binning.py:_normal_round_to_int", "seismostats/utils/binning.py:normal_round"]}
{"id": "C06", "title": "Binning is idempotent, order preserving and translation equivariant", "statement": "bin_to_precision(bin_to_precision(x,d),d) = bin_to_precision(x,d); x <= y implies bin(x) <= bin(y); bin(x + k*d) = bin(x) + k*d for every integer k.", "quantifier": "all arrays, bin sizes and integers k", "why_tests_cant": "universally quantified over reals", "anchors": ["seismostats/utils/binning.py:bin_to_precision"]}
{"id": "C07", "title": "normal_round to n decimals", "statement": "normal_round(x, n) is the multiple of 10^-n nearest to x (halves up), is idempotent, and leaves every number with at most n decimals unchanged.", "quantifier": "all x and n", "why_tests_cant": "universally quantified over reals", "anchors": ["seismostats/utils/binning.py:normal_round"]}
{"id": "C08", "title": "binning_test accepts exactly arrays on a common grid", "statement": "For delta >= 1e-12, delta >= tolerance and check_larger_binning=False, binning_test(x, delta) is True iff every difference to the smallest finite entry is within tolerance of its binned value; it holds for every array that is an arbitrary offset plus integer multiples of delta; the verdict does not depend on order, on NaN entries (as long as one entry is a number) or on adding a constant to all entries; with check_larger_binning=True a True verdict additionally excludes the next larger power of ten; an empty or all-NaN array raises. (Defect, proved: the documented delta_x = 0 mode always raises, with the default tolerance, for entries spread by more than 1e-14.)", "quantifier": "all arrays, offsets, bin sizes", "why_tests_cant": "universally quantified over arrays", "anchors": ["seismostats/utils/binning.py:binning_test"]}
{"id": "C09", "title": "get_fmd partitions the magnitudes", "statement": "get_fmd(m, d) returns bins that are consecutive multiples of d from the binned minimum to the binned maximum; the count of a bin is the number (total weight) of magnitudes that round to it; counts add up to len(m) (the total weight); bin_position='left' shifts all bins by d/2 and nothing else; d < 1e-12, no magnitudes and weights of another length raise ValueError, an unknown bin_position AssertionError.", "quantifier": "all non-empty magnitude arrays, bin sizes, weights", "why_tests_cant": "universally quantified over arrays", "anchors": ["seismostats/utils/binning.py:get_fmd"]}
{"id": "C10", "title": "get_cum_fmd counts events at or above each bin", "statement": "get_cum_fmd's count of a bin is the number (weight) of events whose binned magnitude is at or above that bin; the counts never increase from left to right (weights >= 0) and the first equals the total; for fmd_bin = 0 the bins are the distinct magnitudes in increasing order and the count of a bin is the number of magnitudes at or above it.", "quantifier": "all non-empty magnitude arrays, bin sizes, weights", "why_tests_cant": "universally quantified over arrays", "anchors": ["seismostats/utils/binning.py:get_cum_fmd"]}
{"id": "C11", "title": "b-value estimators use exactly the events at or above mc", "statement": "For the classic and the Utsu estimator: after calculate(magnitudes, mc, delta_m, weights) the estimator's magnitudes are exactly the given ones >= mc - delta_m/2 in the original order (NaN dropped), idx are their positions in the input, weights are theirs, n is their number; an accepted input with an empty selection gives b_value = NaN; weights of the wrong length raise IndexError, negative ones ValueError. (Defect, proved: a non-empty array of NaN only raises ValueError instead of giving NaN.)", "quantifier": "all magnitude arrays (with NaN), mc, delta_m, weights", "why_tests_cant": "universally quantified over arrays", "anchors": ["seismostats/analysis/bvalue/base.py:BValueEstimator.calculate", "seismostats/analysis/bvalue/base.py:_filter_magnitudes", "seismostats/analysis/bvalue/base.py:_sanity_checks"]}
{"id": "C12", "title": "A re-used estimator does not remember", "statement": "Whatever calls and assignments to its attributes (magnitudes, mc, delta_m, weights, idx, times, dmc) an estimator instance has gone through, a successful calculate returns and stores what a fresh instance would; reading b_value, beta, n or std before any calculate raises AttributeError; b_value is always the value of the last successful call. (Defect, proved: after a failed calculate the old b_value is still reported together with n and magnitudes of the rejected input.)", "quantifier": "all histories of calls and assignments of one estimator object", "why_tests_cant": "quantifies over call histories and failure points", "anchors": ["seismostats/analysis/bvalue/base.py:calculate", "seismostats/analysis/bvalue/base.py:b_value"]}
{"id": "C13", "title": "ClassicBValueEstimator is the maximum likelihood estimate", "statement": "The beta behind ClassicBValueEstimator.calculate maximises, over all beta > 0, the (weighted) log-likelihood of the magnitudes under the exponential law (delta_m = 0) or under its discretisation to bins of width delta_m (delta_m > 0), uniquely.", "quantifier": "all samples with mean magnitude > mc, all weights with positive total, all beta > 0", "why_tests_cant": "optimality is a statement over a continuum of candidates and over all samples", "anchors": ["seismostats/analysis/bvalue/classic.py:ClassicBValueEstimator._estimate", "seismostats/analysis/bvalue/classic.py:_mle_estimator"]}
{"id": "C14", "title": "Classic and Utsu estimates are translation invariant and scale correctly", "statement": "Adding a constant to all magnitudes and to mc leaves the estimate unchanged; multiplying all magnitudes, mc and delta_m by c > 0 divides it by c, if both inputs are accepted.", "quantifier": "all samples, constants", "why_tests_cant": "universally quantified over reals", "anchors": ["seismostats/analysis/bvalue/classic.py", "seismostats/analysis/bvalue/utsu.py"]}
{"id": "C15", "title": "Weights act as multiplicities", "statement": "Multiplying all weights by c > 0 leaves the b-value unchanged; equal weights give the unweighted b-value; an event of integer weight k counts as k copies; an event of weight 0 counts as absent.", "quantifier": "all samples, weights", "why_tests_cant": "universally quantified over arrays", "anchors": ["seismostats/analysis/bvalue/classic.py:_mle_estimator", "seismostats/analysis/bvalue/utsu.py:_estimate"]}
{"id": "C16", "title": "Classic and Utsu estimates do not depend on event order", "statement": "Permuting events (with their weights) leaves b-value, beta, n and std unchanged.", "quantifier": "all samples and permutations", "why_tests_cant": "n! permutations", "anchors": ["seismostats/analysis/bvalue/base.py:calculate"]}
{"id": "C17", "title": "The warnings option never changes a b-value", "statement": "Setting the option warnings to False changes no returned value, stored attribute or raised error of the b-value and a-value estimators.", "quantifier": "all inputs, all estimators", "why_tests_cant": "universally quantified over inputs", "anchors": ["seismostats/analysis/bvalue/base.py:_sanity_checks", "seismostats/analysis/avalue/base.py:_sanity_checks"]}
{"id": "C18", "title": "Utsu never exceeds the classic estimate", "statement": "For the same data with mean magnitude > mc, UtsuBValueEstimator's b is at most ClassicBValueEstimator's, both are positive, and both are equal for delta_m = 0.", "quantifier": "all samples", "why_tests_cant": "inequality over reals", "anchors": ["seismostats/analysis/bvalue/utsu.py:UtsuBValueEstimator._estimate", "seismostats/analysis/bvalue/classic.py"]}
{"id": "C19", "title": "beta and b conversions agree everywhere", "statement": "beta_to_b_value and b_value_to_beta are mutually inverse; estimator.beta = ln(10)*estimator.b_value; estimate_b(..., b_parameter='beta') returns ln(10) times the result for 'b_value', and ln(10) times its std.", "quantifier": "all values", "why_tests_cant": "universally quantified over reals", "anchors": ["seismostats/analysis/bvalue/utils.py:beta_to_b_value", "seismostats/analysis/bvalue/utils.py:b_value_to_beta", "seismostats/analysis/bvalue/__init__.py:estimate_b"]}
{"id": "C20", "title": "Shi and Bolt standard deviation", "statement": "shi_bolt_confidence is ln(10) b^2 sd/sqrt(n-1) with the weighted population standard deviation, non-negative, zero iff all magnitudes are equal (b != 0), invariant under shifting all magnitudes and under permutation; with fewer than two magnitudes there is no finite value.", "quantifier": "all samples and weights", "why_tests_cant": "universally quantified over arrays", "anchors": ["seismostats/analysis/bvalue/utils.py:shi_bolt_confidence"]}
{"id": "C21", "title": "Bootstrap standard deviation ignores only non-finite estimates", "statement": "bootstrap_std is the sample standard deviation (ddof 1) of the finite bootstrap estimates, non-negative, and raises ValueError iff no estimate is finite; exactly one finite estimate gives NaN.", "quantifier": "all estimators and all random resamples", "why_tests_cant": "quantifies over the random draws", "anchors": ["seismostats/analysis/bvalue/utils.py:bootstrap_std"]}
{"id": "C22", "title": "b-positive uses exactly the positive differences", "statement": "BPositiveBValueEstimator uses the differences of time-consecutive magnitudes (events >= mc) that are >= dmc - delta_m/2 and no others; every used difference is at least dmc - delta_m/2 before rounding to the grid, and at least dmc if dmc is a multiple of delta_m; the weights, times and idx kept are those of the later event; the result is the maximum likelihood estimate from these differences; dmc < 0 raises ValueError. (Defect, proved: with no usable difference the result is NaN without weights but ZeroDivisionError with weights.)", "quantifier": "all samples, times, dmc", "why_tests_cant": "universally quantified over arrays", "anchors": ["seismostats/analysis/bvalue/positive.py:BPositiveBValueEstimator"]}
{"id": "C23", "title": "b-positive and b-more-positive depend on time order only", "statement": "Permuting the events together with their (distinct) times leaves the b-positive and the b-more-positive estimate unchanged, as does any strictly increasing change of the time axis and adding a constant to all magnitudes and mc.", "quantifier": "all samples and permutations", "why_tests_cant": "n! permutations", "anchors": ["seismostats/analysis/bvalue/positive.py:_filter_magnitudes"]}
{"id": "C24", "title": "find_next_larger finds the next larger event", "statement": "find_next_larger(m, delta_m, dmc)[i] is the index of the first later event with magnitude >= m[i] + dmc - delta_m/2, and 0 iff there is none.", "quantifier": "all arrays and thresholds", "why_tests_cant": "universally quantified over arrays", "anchors": ["seismostats/analysis/bvalue/utils.py:find_next_larger"]}
{"id": "C25", "title": "b-more-positive pairs each event with its next larger one", "statement": "BMorePositiveBValueEstimator uses for each event having a later event larger by at least dmc - delta_m/2 exactly one difference, the one to the first such event, every used raw difference >= dmc - delta_m/2 and every used value >= dmc for dmc a multiple of delta_m; the result is the maximum likelihood estimate from these differences. (Defect, proved: unlike the other estimators it raises ValueError for every non-empty selection with delta_m = 0.)", "quantifier": "all samples", "why_tests_cant": "universally quantified over arrays", "anchors": ["seismostats/analysis/bvalue/more_positive.py"]}
{"id": "C26", "title": "make_more_incomplete keeps exactly unmasked events", "statement": "make_more_incomplete keeps an event iff no earlier event less than delta_t before it is strictly larger; the first event is always kept, the result is in time order, applying it twice changes nothing, and with return_idx the mask selects exactly the returned events.", "quantifier": "all samples, time windows", "why_tests_cant": "universally quantified over arrays", "anchors": ["seismostats/analysis/bvalue/utils.py:make_more_incomplete"]}
{"id": "C27", "title": "estimate_b returns what was asked", "statement": "estimate_b returns b (or beta, with the std of beta), followed by std and, if return_n, by n if return_std, for each flag combination with return_std or without return_n; an unknown b_parameter raises ValueError; exceptions of the estimator are passed on. (Defect, proved: return_n without return_std raises TypeError.)", "quantifier": "all inputs and flag combinations", "why_tests_cant": "universally quantified over inputs", "anchors": ["seismostats/analysis/bvalue/__init__.py:estimate_b"]}
{"id": "C28", "title": "Classic a-value counts events above mc", "statement": "ClassicAValueEstimator returns log10 of the number of events >= mc - delta_m/2; 10^a is that number; no event gives NaN; it does not depend on order; adding an event never decreases it.", "quantifier": "all samples", "why_tests_cant": "universally quantified over arrays", "anchors": ["seismostats/analysis/avalue/classic.py", "seismostats/analysis/avalue/base.py:AValueEstimator.calculate"]}
{"id": "C29", "title": "a-value reference and scaling follow Gutenberg-Richter", "statement": "The a-value at m_ref is a - b*(m_ref - mc); moving the reference in two steps equals one step; dividing by scaling_factor subtracts log10, so 10^a is the Gutenberg-Richter rate at m_ref; a missing b_value with m_ref raises ValueError. (Defect, proved: after that exception the unscaled value is left behind as a_value.)", "quantifier": "all samples, references, scalings", "why_tests_cant": "universally quantified over reals and failure points", "anchors": ["seismostats/analysis/avalue/base.py:_reference_scaling", "seismostats/analysis/avalue/base.py:calculate"]}
{"id": "C30", "title": "a-positive is a rate estimate over positive differences", "statement": "APositiveAValueEstimator returns log10(n_pos / (time waited / duration)) over the positive differences of time-consecutive selected events, at least log10(n_pos); +inf if no time was waited and NaN if the catalog has no duration or no difference is used; it does not change under rescaling or shifting of the time axis, nor under permutation of events with distinct times. (Defect, proved: without a used difference, times keeps all selected events while magnitudes and idx are empty.)", "quantifier": "all samples, times", "why_tests_cant": "universally quantified over arrays", "anchors": ["seismostats/analysis/avalue/positive.py:APositiveAValueEstimator"]}
{"id": "C31", "title": "a-more-positive is a rate estimate over next larger pairs", "statement": "AMorePositiveAValueEstimator uses exactly the pairs of b-more-positive, and returns log10(n_pairs / (waited / duration)), each event waiting until its partner (or the last event), scaled by 10^(-b*(m+dmc-mc)); invariant under affine changes of the time axis and permutation of events with distinct times; a missing b_value raises ValueError; no pair gives NaN. (Defect, proved: b_value = 0 is rejected as missing.)", "quantifier": "all samples, times", "why_tests_cant": "universally quantified over arrays", "anchors": ["seismostats/analysis/avalue/more_positive.py:AMorePositiveAValueEstimator"]}
{"id": "C32", "title": "Kijko-Smit combines sub-catalogues as stated", "statement": "kijko_smit uses each event iff its magnitude exceeds the completeness magnitude of its year; if every completeness period has an event, the returned b-value is N / sum (m - mc(year)) over ln 10, the maximum-likelihood value of the exponential law on the differences, its deviation b/sqrt(N) and the rate the expected one; shifting magnitudes and completeness together, or reordering events, changes nothing. (Defects, proved: a completeness period without events makes all results NaN; no complete event raises ZeroDivisionError; b_parameter='beta' never returns.)", "quantifier": "all catalogues and completeness tables", "why_tests_cant": "universally quantified over tables", "anchors": ["seismostats/analysis/bvalue/kijko_smit.py"]}
{"id": "C33", "title": "Weichert uses complete years only", "statement": "weichert uses exactly the events whose year is not before the (positive) completeness year of their magnitude; each of them is counted in exactly one bin [edge, edge+delta_m); where the objective handed to the optimiser vanishes beta maximises the binned likelihood; as soon as two bins contain events there is exactly one such beta, and it is the only maximum; the deviation of beta is a positive number whenever two bins have been observed. (Defects, proved: all events in one bin make the deviation NaN; a complete event at or above mag_max+0.01 raises AttributeError; b_parameter='beta' never returns.)", "quantifier": "all catalogues and completeness tables", "why_tests_cant": "universally quantified over tables", "anchors": ["seismostats/analysis/bvalue/weichert.py"]}
{"id": "C34", "title": "Discrete exponential distribution function", "statement": "cdf_discrete_exp sorts its sample points; for beta > 0 and delta_m > 0 it is non-decreasing, at most 1 everywhere and non-negative from mc - delta_m on, and at the bin centre mc + k*delta_m it equals 1 - exp(-beta*(k+1)*delta_m), i.e. the mass the exponential law starting at mc - delta_m/2 gives to all bins up to x. (Below mc - delta_m it is not clipped and is negative.)", "quantifier": "all sample points, mc, delta_m > 0, beta > 0", "why_tests_cant": "universally quantified over reals", "anchors": ["seismostats/analysis/estimate_mc.py:cdf_discrete_exp"]}
{"id": "C35", "title": "KS test result is a probability and does not depend on the warnings option", "statement": "ks_test_gr returns a p-value in [0,1] equal to the fraction of the simulated distances >= the observed one, for every random draw (and for given distances), and the observed distance is the largest difference between the empirical and the discretised exponential distribution function on the bins, between 0 and 1; the result does not depend on the order of the sample, and for samples with at least two distinct values not on the warnings option. (Defects, proved: a single-valued sample gives p = 0 with warnings on and may give p = 1 with warnings off; the empty sample raises although a guard for it exists.)", "quantifier": "all samples and random draws", "why_tests_cant": "quantifies over random draws", "anchors": ["seismostats/analysis/estimate_mc.py:ks_test_gr"]}
{"id": "C36", "title": "estimate_mc_ks returns the smallest passing mc", "statement": "estimate_mc_ks tests the distinct candidate mcs in increasing order (default: all bins from the smallest magnitude up to, not including, the largest) and returns the smallest one whose p-value is >= p_pass, with its b-value, or None if none passes; stop_when_passed changes which mcs are tested but not the result; the lists returned are aligned with the tested mcs; with fresh estimators per mc the result is the same. A candidate above all magnitudes raises with warnings on for an array and counts as failed for a pandas Series. (Defects, proved: given ks_ds_list is used in the order of the sorted distinct mcs, not of the list the caller gave; if all magnitudes are equal the default list is empty and the call raises with warnings on and returns None with warnings off.)", "quantifier": "all samples, mc lists, p-values", "why_tests_cant": "universally quantified over lists", "anchors": ["seismostats/analysis/estimate_mc.py:estimate_mc_ks"]}
{"id": "C37", "title": "estimate_mc_maxc returns the fullest bin plus the correction", "statement": "estimate_mc_maxc returns correction_factor plus a bin whose count is maximal, the lowest such bin; independent of order; NaN magnitudes are ignored.", "quantifier": "all samples", "why_tests_cant": "universally quantified over arrays", "anchors": ["seismostats/analysis/estimate_mc.py:estimate_mc_maxc"]}
{"id": "C38", "title": "estimate_mc_b_stability returns a stable mc", "statement": "estimate_mc_b_stability compares at each candidate mc the b-value with the average over the stability range in units of its standard deviation; it tests all candidates, or with stop_when_passed those up to the first stable one; with stop_when_passed it returns the first stable candidate, otherwise the most stable one (the last of ties), with its b-value, None only if none is stable; with the classic and the Utsu estimator it returns on binned magnitudes whenever there is a candidate. (Defects, proved: if the first difference is NaN the result is None whatever follows; a best mc of 0.0 is reported as None with its b-value; a stability range of at most one bin leaves no default candidate: the call raises with warnings on and returns None with warnings off.)", "quantifier": "all samples, ranges", "why_tests_cant": "universally quantified over arrays", "anchors": ["seismostats/analysis/estimate_mc.py:estimate_mc_b_stability"]}
{"id": "C39", "title": "Moran's I is affine invariant and accepts any triangle", "statement": "est_morans_i returns the number of valid (non-NaN) values, the number of neighbouring pairs of valid values, and (n-1)/n_p times the sum of products of deviations over those pairs divided by the sum of squared deviations (NaN if there is no pair, no deviation, or an infinite value). est_morans_i(a*x+b) = est_morans_i(x) for a != 0; the upper-triangular, lower-triangular and symmetric forms of a 0/1 matrix give the same answer. It raises exactly for fewer than two values or an unsuitable matrix.", "quantifier": "all value vectors and weight matrices", "why_tests_cant": "universally quantified over matrices", "anchors": ["seismostats/analysis/b_significant.py:est_morans_i"]}
{"id": "C40", "title": "transform_n rescales deviations", "statement": "For positive b, b_true and 0 < n1 <= n2, 1/transform_n - 1/b_true is sqrt(n1/n2) times 1/b - 1/b_true; hence transform_n(b, b_true, n, n) = b, b_true is a fixed point, going n1->n2->n3 equals n1->n3, the map is strictly increasing in b; n1 > n2 raises ValueError.", "quantifier": "all positive b, b_true and n1 <= n2", "why_tests_cant": "universally quantified over reals", "anchors": ["seismostats/analysis/b_significant.py:transform_n"]}
{"id": "C41", "title": "cut_constant_idx cuts without loss", "statement": "cut_constant_idx(values, n, offset) returns pieces whose concatenation is values, all inner pieces of length n, the first of length offset (or n), and indices at which they start; offset >= n raises ValueError.", "quantifier": "all arrays, n, offset", "why_tests_cant": "universally quantified over arrays", "anchors": ["seismostats/analysis/b_significant.py:cut_constant_idx"]}
{"id": "C42", "title": "b_significant_1D windows are contiguous and full", "statement": "b_significant_1D selects the events at or above mc - delta_m/2 in the order of x_variable; with fewer than 3*n_m of them all results are NaN. Otherwise it estimates only on windows of exactly n_m consecutive selected events, with their times and the largest mc in the window, every window being used by exactly one of the n_m offsets; offsets with fewer than three windows of min_num used events are NaN and are left out of the averages; the p-value is in [0,1] and the expectation is -1/mean(n). (Defect, proved: with x_variable, a list mc is not reordered together with the events, so events are compared with another event's mc. Limit, proved: weights per event cannot be given; a keyword weights of another length than n_m is an error as soon as there are three windows of events.)", "quantifier": "all catalogues, n_m, offsets", "why_tests_cant": "universally quantified over arrays", "anchors": ["seismostats/analysis/b_significant.py:b_significant_1D"]}
{"id": "C43", "title": "values_from_partitioning evaluates part by part", "statement": "values_from_partitioning returns one estimate per part, equal to the estimator applied to that part alone, time ordered, with the matching mc (and scaling factor for a-values), and the parts' counts; empty parts are NaN, NaN, 0; parts are treated independently; lists of different length raise IndexError; keywords that the estimator class does not know, or a missing b_value for a-more-positive, are an error as soon as there is an event; so are too few scaling factors for an a-value method, while surplus ones are ignored. (Defects, proved: in a part with fewer times than magnitudes the surplus magnitudes are silently dropped; a list of weights is used by position in the time order of each part and does not follow its events, so the same weighted events given in another order have another estimate. Limit, proved: the one list of weights is used for every part, so parts of different sizes cannot be weighted.)", "quantifier": "all partitions and estimators", "why_tests_cant": "universally quantified over partitions", "anchors": ["seismostats/analysis/b_significant.py:values_from_partitioning"]}
{"id": "C44", "title": "Gardner-Knopoff assigns every event to exactly one cluster with one mainshock", "statement": "GardnerKnopoffType1 (default index, fs_time_prop >= 0) flags an event as mainshock exactly if it lies in the time and distance windows of no mainshock that is larger (or equally large and earlier); this determines the flags. Hence every event belongs to one cluster with one mainshock, which comes first in size and whose windows contain it; declustering the mainshocks again keeps all of them; without ties the order of the rows does not matter. (Defects, proved: index labels are used as positions, so a catalogue with another index gets wrong flags or raises IndexError.)", "quantifier": "all catalogues with a default index, windows of the package, fs_time_prop >= 0", "why_tests_cant": "universally quantified over catalogues", "anchors": ["seismostats/analysis/declustering/dec_gardner_knopoff.py:GardnerKnopoffType1"]}
{"id": "C45", "title": "Declustering windows never shrink as magnitude grows", "statement": "The distance and time windows of the three window classes are positive where defined, defined for magnitudes >= 0, the distance windows and the Gruenthal and Uhrhammer time windows are non-decreasing in magnitude; a positive time_cutoff caps the time window. (Defects, proved: the Gardner-Knopoff time window shrinks at magnitude 6.5; time_cutoff=0 is ignored; Gruenthal windows are NaN below magnitude -0.0363.)", "quantifier": "all magnitudes", "why_tests_cant": "universally quantified over reals", "anchors": ["seismostats/analysis/declustering/distance_time_windows.py"]}
{"id": "C46", "title": "Epicentral distance is the great-circle distance", "statement": "haversine(p,q) is the Earth radius times the angle between the two points: symmetric, between 0 and half the circumference for all real coordinates, 0 exactly for the same point of the sphere, satisfies the triangle inequality, and does not depend on full turns of longitude.", "quantifier": "all coordinate pairs", "why_tests_cant": "universally quantified over reals", "anchors": ["seismostats/analysis/declustering/utils.py:haversine"]}
{"id": "C47", "title": "QuakeML event parsing treats events independently", "statement": "Parsing a QuakeML document yields one record per event element, in document order; the end of an event resets the handler, so the result of a stream is that of the part up to the end of any event followed by that of the rest parsed alone; the record is built from the texts of this event's own elements (publicID and, per element name path, the stripped texts joined), everything outside events is ignored; a file cut off inside an event yields the complete events before it; splitting a text into chunks does not matter unless the cut is next to inner white space. (Defects, proved: white space next to a chunk boundary inside a text is lost, so 'quarry ' + 'blast' is read as 'quarryblast'; one event with a magnitude without type makes the whole document unreadable.)", "quantifier": "all event streams", "why_tests_cant": "quantifies over document contents and chunkings", "anchors": ["seismostats/io/parser.py:QuakeMLHandler", "seismostats/io/parser.py:_parse_to_dict"]}
{"id": "C48", "title": "Preferred origin and magnitude are selected", "statement": "If ids are distinct, a record carries the columns of the origin and of the magnitude whose ids the event names as preferred, each column present exactly if the element has it, and None/absent values if there is no such element; with include_all_magnitudes the columns magnitude_<type>... show, for the preferred type, the preferred magnitude, and for every other type the magnitude with the highest version, then latest creation time, then first listed, whatever the iteration order of the set of types; without it there are no such columns. An event whose origins and magnitudes have ids and types and readable versions is read without exception. (Defects, proved: a magnitude type named 'type' overwrites magnitude_type, a type 'ML_uncertainty' overwrites the uncertainty of ML.)", "quantifier": "all events, sets of origins and magnitudes, iteration orders, and type names without underscore and different from type and the uncertainty suffixes", "why_tests_cant": "universally quantified over element lists", "anchors": ["seismostats/io/parser.py:_select_magnitude_by_id", "seismostats/io/parser.py:_get_preferred_magnitude", "seismostats/io/parser.py:_extract_secondary_magnitudes"]}
{"id": "C49", "title": "Catalog column filters remove exactly the announced columns", "statement": "drop_uncertainties removes exactly the columns whose name ends in _uncertainty, _lowerUncertainty, _upperUncertainty or _confidenceLevel, drop_ids exactly those whose name ends in eventID, originID or magnitudeID (in both a final line break is ignored); all other columns keep their order and cells, the number of rows and the class stay; both are idempotent and commute. from_dict has exactly the keys of the records as columns, each once, without these when they are not wanted. (Defect, proved: drop_ids is documented to drop the columns with exactly these names, but drops every column ending so.)", "quantifier": "all column sets", "why_tests_cant": "universally quantified over column names", "anchors": ["seismostats/catalogs/catalog.py:drop_uncertainties", "seismostats/catalogs/catalog.py:drop_ids"]}
{"id": "C50", "title": "Catalog.bin_magnitudes", "statement": "bin_magnitudes rounds every magnitude (as in C05) with delta_m from the argument, else the attribute, records delta_m, keeps all other columns, rows and attributes; without inplace the catalogue is unchanged. Without bin size or with one below 1e-12: ValueError, without magnitude column: AttributeError, and no change. Binning twice equals binning once.", "quantifier": "all catalogues", "why_tests_cant": "universally quantified over catalogues", "anchors": ["seismostats/catalogs/catalog.py:bin_magnitudes"]}
{"id": "C51", "title": "Catalog.estimate_b / estimate_a resolve arguments by precedence", "statement": "estimate_b and estimate_a take mc and delta_m from the argument, else the attribute, else raise ValueError; weights (b only) from the argument, else the weight column; further parameters of the estimator from the caller, else from columns (C69); only the b-value (a-value) is stored; a failing call changes nothing, and no sequence of calls changes content, mc or delta_m. The mc methods store mc only. (Defects, proved: an unsuccessful mc search overwrites mc with None; with a stored b-value the KS search cannot be made to estimate b; weights for an estimator without weights are silently dropped.)", "quantifier": "all attribute and argument combinations", "why_tests_cant": "quantifies over object states", "anchors": ["seismostats/catalogs/catalog.py:estimate_b", "seismostats/catalogs/catalog.py:estimate_a"]}
{"id": "C52", "title": "QuakeML output keeps all complete events and all magnitudes", "statement": "to_quakeml writes exactly one event per row with time, latitude and longitude, in order; reading that document back with all magnitudes gives for each such row a record with the same identifiers, types, coordinates, depth, uncertainties, quality values, preferred magnitude, and each secondary magnitude of another type with its uncertainty. A ForecastCatalog gives one such document per catalog_id, in ascending order. (Defects, proved: a secondary magnitude whose column name contains the preferred type as a substring is lost, MLhc with ML; a row without magnitude type loses all secondary magnitudes; lower and upper uncertainties and confidence levels are not written; secondary magnitudes without an id column get the empty publicID; an origin id with surrounding white space loses the origin on reading; forecast rows without catalog_id are in no document.)", "quantifier": "all catalogues", "why_tests_cant": "universally quantified over catalogues", "anchors": ["seismostats/catalogs/catalog.py:to_quakeml", "seismostats/catalogs/catalog.py:_secondary_magnitudekeys", "seismostats/catalogs/catalog.py:_create_ids"]}
{"id": "C53", "title": "OpenQuake conversion round trip", "statement": "If every time of a catalogue can be held by pandas, from_openquake(to_openquake(cat)) has one row per event, in order, with the same values of the kept columns and the same time truncated to the microsecond, even though the seconds pass through a floating point number. A catalogue without one of the five required columns, or with a cell in the time column that is neither a time nor a missing time, is refused with AttributeError. Any OpenQuake catalogue (columns of one length or empty, dates as integers, seconds whole or the float nearest to a number of microseconds) is read with exactly its times and its columns that are not empty; if a column of the date or time is missing or empty it is a KeyError. (Defects, proved: if one time is outside the range of pandas every event loses its fraction of a second; with such a time a catalogue of numbers only, some of them floats, raises TypeError; an event without time is converted to OpenQuake but can not be read back (ValueError); an empty catalogue comes back without columns; columns named like a time unit are overwritten.)", "quantifier": "all catalogues, all roundings of the seconds closer than half a microsecond", "why_tests_cant": "universally quantified over timestamps", "anchors": ["seismostats/catalogs/catalog.py:to_openquake", "seismostats/catalogs/catalog.py:from_openquake"]}
{"id": "C54", "title": "Operations keep the class and metadata", "statement": "The result of a frame operation on a Catalog is a ForecastCatalog if it has magnitude and catalog_id columns, a Catalog if it has magnitude only, otherwise a plain DataFrame, which stays plain for ever; every attribute is carried over from the (first / left) operand, through any sequence of operations that keeps the magnitude column; an attribute the operand does not have is None; cells are only changed by the constructor's conversion; assigning a column in place sets the cells of this column and nothing else. (Defect, proved: a Catalog that gets a catalog_id column becomes a ForecastCatalog with the required columns of a Catalog, so strip drops catalog_id.)", "quantifier": "all operations and attribute states", "why_tests_cant": "universally quantified over operations", "anchors": ["seismostats/catalogs/catalog.py:__finalize__", "seismostats/catalogs/catalog.py:_constructor_from_mgr"]}
{"id": "C55", "title": "Rate grid cells are identified by their bounds", "statement": "When a rate grid with cells in its index is made, every row gets the number of its cell as last label: two rows without missing bounds have the same number iff they have the same bounds, the numbers are 0..k-1 in the order of the bounds, and all other labels, cells and columns are kept. concat of grids without times in the index keeps all rows in order, labels each with the start time (and end time if all grids have one) of its grid and a number that counts over all grids, has all columns, and spans the times of its rows; concat of grids that already have their times in the index keeps these and numbers the cells anew; grids with different numbers of index levels or no grids are a ValueError, a grid without start time or required column an AttributeError. (Defects, proved: rows with the same bounds, one of them missing, get different numbers although equal_nan is asked for; selecting rows numbers the cells anew, so a cell does not keep its number; without end times the end time becomes the latest start time; a column called 'cell' is lost.)", "quantifier": "all grids, all lists of grids", "why_tests_cant": "universally quantified over tables", "anchors": ["seismostats/catalogs/rategrid.py:_reindex_cell_id", "seismostats/catalogs/rategrid.py:concat"]}
{"id": "C56", "title": "Rate grid statistics give one row per cell", "statement": "calculate_statistics returns exactly one row per cell without missing bounds (or per index label), in order, each number column being the aggregate of exactly the values of that cell and each further statistic computed from exactly the values of its column; an aggregate that gives back constants keeps the bounds; if there is nothing to aggregate it is a ValueError. (Defects, proved: the function is also applied to the bounds, so that with a sum the bounds of the result are wrong; a bound missing in all rows or an empty grid raises KeyError; rows with a missing bound are dropped silently.)", "quantifier": "all grids, aggregation functions and further statistics", "why_tests_cant": "universally quantified over tables", "anchors": ["seismostats/catalogs/rategrid.py:calculate_statistics"]}
{"id": "C57", "title": "Required columns are enforced", "statement": "A method decorated with require_cols runs, with its own result, if every required and not excluded column is there; otherwise AttributeError naming exactly the missing columns, before any effect; this holds for every call whatever calls were made before.", "quantifier": "all column sets", "why_tests_cant": "universally quantified over column sets", "anchors": ["seismostats/utils/__init__.py:require_cols", "seismostats/utils/__init__.py:_check_required_cols"]}
{"id": "C58", "title": "Polygon filter keeps exactly the events inside", "statement": "cat_intersect_polygon on a catalogue with events and coordinate columns returns a new catalogue with exactly the rows whose point (latitude, longitude) meets the polygon, in order, with all columns; a smaller polygon can be applied afterwards with the same result as at once; without coordinate columns a KeyError. (Defects, proved: vertices are documented as (x, y), but their first coordinate is compared with the latitude, so a box of longitudes and latitudes keeps none of its events; an empty catalogue, so also the result of a filter that keeps nothing, is a ValueError; a column called 'inside_polygon' is lost.)", "quantifier": "all catalogues, all polygons", "why_tests_cant": "universally quantified over catalogues", "anchors": ["seismostats/utils/filtering.py:cat_intersect_polygon"]}
{"id": "C59", "title": "Simulated magnitudes stay in range", "statement": "simulate_magnitudes returns n magnitudes; with a maximum other than zero each lies in [mc, mag_max) and is the quantile of its uniform draw under the truncated exponential distribution, and every magnitude of that interval is the result of some draw; without maximum each is at or above mc and beta*(m-mc) is its exponential draw. simulate_magnitudes_binned returns multiples of delta_m that are at or above mc, and at or below the maximum, if those are multiples too. A negative rate without maximum and an unknown b_parameter are a ValueError. (Defects, proved: mag_max = 0 is ignored; a maximum that is not on the grid is exceeded by binned magnitudes.)", "quantifier": "all random draws, sizes and parameters, with a different b-value for every event if wanted", "why_tests_cant": "quantifies over random draws", "anchors": ["seismostats/utils/simulate_distributions.py:simulate_magnitudes", "seismostats/utils/simulate_distributions.py:simulate_magnitudes_binned"]}
{"id": "C60", "title": "Dithered magnitudes stay in their bin", "statement": "dither_magnitudes on magnitudes that pass the binning test and lie on a grid returns as many numbers as given: the i-th smallest magnitude m is replaced by the i-th returned number, which lies in [m-delta_m/2, m+delta_m/2). Magnitudes that fail the test and empty arrays are a ValueError. (Defects, proved: the result is ordered by bin, not by event; a magnitude whose upper bin edge is zero gets a value without upper bound; an array with all magnitudes equal, as of a single event, is rejected.)", "quantifier": "all magnitude arrays on a grid of any offset, all random draws and b-values other than zero", "why_tests_cant": "quantifies over random draws", "anchors": ["seismostats/utils/simulate_distributions.py:dither_magnitudes"]}
{"id": "C61", "title": "Coordinate transformation round trip", "statement": "If the projections to and from the local system are inverse to each other, from_local_coords undoes to_local_coords and conversely, for points and arrays, with or without altitude; local coordinates are the projected ones minus the reference, so the reference point is the origin, also when it is given in another system; polygons are transformed vertex by vertex, holes included, and come back unchanged; polygon_to_bounding_box gives the smallest box and undoes bounding_box_to_polygon. (Defect, proved: the bounds are returned in another order than they are taken, so handing the tuple of one function to the other changes the box.)", "quantifier": "all projections, reference points, points, arrays and polygons", "why_tests_cant": "universally quantified over points", "anchors": ["seismostats/utils/coordinates.py:CoordinateTransformer"]}
{"id": "C62", "title": "apply_edwards converts local magnitudes only", "statement": "apply_edwards gives a magnitude whose type contains l or L the type 'Mw_converted' and the value 1.02+0.472m+0.0491m^2, keeps a type with w and no l, and gives None for any other type; applying it to its own result changes nothing; it keeps the order of magnitudes from -0.472/(2*0.0491) on. (Defects, proved: below that the order is reversed; types as mb_Lg are taken for local magnitudes.)", "quantifier": "all magnitudes and type strings", "why_tests_cant": "universally quantified over reals and strings", "anchors": ["seismostats/analysis/magnitudes.py:apply_edwards"]}
{"id": "C63", "title": "gutenberg_richter curve", "statement": "gutenberg_richter(m, b, mc, n) is n at mc, a tenth 1/b magnitudes later, positive and, for b > 0, decreasing; from any point of the curve taken as reference the curve is the same.", "quantifier": "all magnitudes, b-values, reference magnitudes and event numbers", "why_tests_cant": "universally quantified over reals", "anchors": ["seismostats/plots/basics.py:gutenberg_richter"]}
{"id": "C64", "title": "Dot sizes are a bounded monotone function of magnitude", "statement": "For magnitudes that are not all equal and a positive power dot_size gives every magnitude a size between the smallest and the largest dot, the smallest magnitude the smallest dot, the largest the largest, and larger magnitudes larger dots; a largest size that is not above the smallest is replaced by one that is; reverse_dot_size with the smallest and largest magnitude gives back the magnitudes; with a power of zero all dots have the largest size. (Defects, proved: if all magnitudes are equal every size is NaN (unless the power is zero); with a negative power the smallest magnitude has an infinite dot.)", "quantifier": "all magnitude arrays, sizes and powers", "why_tests_cant": "universally quantified over arrays", "anchors": ["seismostats/plots/basics.py:dot_size", "seismostats/plots/basics.py:reverse_dot_size"]}
{"id": "C65", "title": "Cumulative counts in time", "statement": "plot_cum_count draws for every completeness magnitude, in order, a step line that starts with 0 at the first event of the catalogue, has at every later time the weight of the events at or above the magnitude (up to half a bin) that have happened so far, ends at the last event with their total weight (1 if normalised) and never falls; nothing for a magnitude without weight above it; without arguments all events are counted. No events and a colour list of another length are ValueErrors, arrays of different lengths an IndexError.", "quantifier": "all catalogues in any order, non-negative weights, all completeness magnitudes", "why_tests_cant": "universally quantified over catalogues", "anchors": ["seismostats/plots/basics.py:plot_cum_count"]}
{"id": "C66", "title": "Completeness line and the lists of the caller", "statement": "plot_mags_in_time with change times draws the line through the given points, ending at the last event with the last completeness magnitude. Without events, with a different number of times and magnitudes or a year that does not exist it is a ValueError, with a date after a year a TypeError, and the lists of the caller stay as they are. (Defects, proved: it appends to the lists of the caller, after k calls both have k more entries; with years only the list of completeness magnitudes grows, so that a second call with the same arguments is a ValueError.)", "quantifier": "all arguments, any number of calls", "why_tests_cant": "quantifies over call histories", "anchors": ["seismostats/plots/basics.py:plot_mags_in_time"]}
{"id": "C67", "title": "Time strings are parsed to the instant they denote", "statement": "A string with one 'T' denotes the time obtained by padding the year to four digits and dropping what follows the first '.' or 'Z'; every year 1..9999 is read as itself; a string without 'T' is not changed, one with two or more is a ValueError; padding twice is padding once; missing values stay missing and datetimes are kept. (Defects, proved: an offset written after the fraction is silently ignored, so two different instants are read as the same; when one string of the column is not ISO 8601 all strings go through this path.)", "quantifier": "all strings, all columns of times", "why_tests_cant": "universally quantified over strings", "anchors": ["seismostats/utils/__init__.py:_pad_year", "seismostats/utils/__init__.py:_robust_parse_datetime"]}
{"id": "C68", "title": "Catalog.strip and constructor clean-up", "statement": "strip keeps exactly the required columns of the object, in their order, with all cells, rows, class and attributes (in place) or returns such a catalogue and leaves the object unchanged; AttributeError without effect if a column of a catalogue is missing; idempotent; a new ForecastCatalog keeps catalog_id. The constructor replaces exactly the texts that stand for nothing in magnitude_type and event_type by a missing entry, never touches other columns than numeric, time and text columns, and converting twice is converting once.", "quantifier": "all catalogues", "why_tests_cant": "universally quantified over strings", "anchors": ["seismostats/catalogs/catalog.py:strip", "seismostats/catalogs/catalog.py:Catalog.__init__"]}
{"id": "C69", "title": "Column lookup prefers exact names", "statement": "Each parameter of the estimator that the base class does not have is filled from the column of exactly that name, else from the column named by its singular (without a final s), else it is not passed; other columns are never passed, and a value given by the caller is never overridden.", "quantifier": "all column sets", "why_tests_cant": "universally quantified over strings", "anchors": ["seismostats/catalogs/catalog.py:_check_catalog_cols"]}
{"id": "C70", "title": "A re-used a-value estimator does not remember", "statement": "The result or exception of calculate of each a-value estimator is the same on a fresh object and on one that has been used (or has failed) before. After a successful call a_value is the returned value, and the whole object is that of a new estimator after the same call; estimate_a returns the same.", "quantifier": "all histories of calls and assignments, all arguments", "why_tests_cant": "universally quantified over histories", "anchors": ["seismostats/analysis/avalue/base.py:AValueEstimator.calculate", "seismostats/analysis/avalue/positive.py", "seismostats/analysis/avalue/more_positive.py"]}
{"id": "C71", "title": "Drawn frequency magnitude distributions", "statement": "plot_cum_fmd draws, for every bin in increasing order, the weight of the non-missing events at or above it, and plot_fmd the weight of each bin; every event is in a drawn bin. With a b-value and without weights the Gutenberg-Richter line starts on the data, at the first bin at or above the completeness magnitude (default: the smallest) up to half a bin, and covers exactly the bins from there on. A completeness magnitude above all magnitudes is a ValueError. (Defects, proved: with weights the line starts at the number of events instead of their weight; with a missing magnitude weights for all events are a ValueError.)", "quantifier": "all magnitude arrays, weights, bin sizes (none or at least 1e-12), bin positions and completeness magnitudes", "why_tests_cant": "universally quantified over arrays", "anchors": ["seismostats/plots/basics.py:plot_cum_fmd", "seismostats/plots/basics.py:plot_fmd"]}
{"id": "C73", "title": "b-value against completeness magnitude", "statement": "plot_mc_vs_b draws, for every given completeness magnitude in the given order, the b-value that a new estimator gives for all the magnitudes and that completeness magnitude, whatever was estimated before in the same call; the band reaches k standard deviations below and above, k being the normal quantile of (1 + confidence) / 2; it contains the curve, and a higher confidence never gives a narrower band.", "quantifier": "all magnitude arrays, lists of completeness magnitudes, estimators, confidence levels, warning settings", "why_tests_cant": "universally quantified over arrays; one estimator object is used for all values, so absence of memory is a property of histories", "anchors": ["seismostats/plots/statistical.py:plot_mc_vs_b"]}
{"id": "C74", "title": "Running b-values", "statement": "plot_b_series_constant_nm takes the events in the order of x_variable (as given without it), leaves out those below their completeness magnitude (up to half a bin), and draws for every window of n_m consecutive events the b-value and deviation a new estimator gives for them in the order of their times with the largest completeness magnitude of the window, at the first, the middle or the last event; NaN if fewer than min_num events are used, and elsewhere. With the technique 'right' later events never change what is drawn for earlier ones. With x_variable the order of the given events is irrelevant (distinct values). n_m below min_num and an unknown technique are ValueErrors, different lengths IndexErrors; too few events give an empty curve.", "quantifier": "all event arrays, window lengths, techniques, estimators, warning settings", "why_tests_cant": "universally quantified over arrays and histories of one estimator object", "anchors": ["seismostats/plots/statistical.py:plot_b_series_constant_nm"]}
{"id": "C75", "title": "Significance plot", "statement": "plot_b_significant_1D draws, for each n_m, NaN if there are fewer than 15 n_m events at or above their completeness magnitude, and else exactly what b_significant_1D returns for the same arguments; the points marked red are exactly those with a p-value below p_threshold. If every needed test returns, so does the plot (n_ms default or array). Default n_ms: at most ten increasing values from 15 to N/15, all tested from 225 events on; N <= 15 min_num is a ValueError. x_variable is the same as sorting magnitudes and times beforehand. (Defects, proved: mc as a list is a TypeError; n_ms as a list is a TypeError as soon as a value is significant; an array mc is not reordered with x_variable; marks are one-sided and the drawn band two-sided, so points inside the band can be marked and points below it never are.)", "quantifier": "all event arrays, n_ms, estimators, thresholds, distribution functions", "why_tests_cant": "universally quantified over arrays and parameters", "anchors": ["seismostats/plots/statistical.py:plot_b_significant_1D"]}
{"id": "C77", "title": "Brightness of a colour", "statement": "_adjust_color_brightness maps colour channels in [0,1] to [0,1] for every factor >= 0: below 1 the distance to white is multiplied by the factor, from 1 on the channel is divided by it (1 changes nothing), and the order of channels is kept; a negative factor leaves the range.", "quantifier": "all channels and factors", "why_tests_cant": "universally quantified over real numbers", "anchors": ["seismostats/plots/statistical.py:_adjust_color_brightness"]}
{"id": "C78", "title": "Bootstrap uncertainty of b-more-positive", "statement": "The uncertainty of BMorePositiveBValueEstimator is the sample standard deviation of the finite estimates that new estimators give for resamples of the events at or above the completeness magnitude, each resample being its drawn events in the order of time with their weights, for the same completeness magnitude, bin size and dmc; the order in which events are drawn is irrelevant. Without events it is a ValueError. (Defect, proved: with weights a single resample without a pair, e.g. one event drawn every time, makes reading std fail although the b-value exists.)", "quantifier": "all samples, times, weights, all random draws, all histories of the object", "why_tests_cant": "universally quantified over random draws and histories", "anchors": ["seismostats/analysis/bvalue/more_positive.py:_std_bootstrap", "seismostats/analysis/bvalue/utils.py:bootstrap_std"]}
{"id": "C72", "title": "Map extent and dots", "statement": "plot_in_space draws one dot per event at its coordinates with the size given by dot_size; by default sizes go from 10 to 200 with the square of the magnitude's position in its range. The map shows the range of the events and five percent of its length on each side (of the country's bounds if a map and a country are asked for; an unknown country is an IndexError), so every event lies on it; in given axes it shows the smallest extent that has both the old extent and the new one, so however many catalogs are plotted into one axes, every dot stays on the map. No events or arrays of different lengths are ValueErrors, except that a single magnitude is accepted for any number of events. The rectangle drawn around a country has the four corners in counterclockwise order. (Limit, proved: with a single magnitude for several events every dot has size NaN, so nothing is seen and nothing is raised.)", "quantifier": "all coordinates, magnitudes, extents of given axes, all sequences of plots into the same axes", "why_tests_cant": "universally quantified over reals and over histories of plots", "anchors": ["seismostats/plots/seismicity.py:plot_in_space", "seismostats/plots/seismicity.py:_rect_from_bound"]}
{"id": "C76", "title": "Lilliefors p-value", "statement": "ks_test_gr_lilliefors is statsmodels' exponential Lilliefors test of the magnitudes minus mc: a ValueError for no magnitudes or one below mc, unchanged by shifting magnitudes and mc together and (as statsmodels' test is) by the b-value and by the order of events. p_lilliefors of an estimator is, for continuous magnitudes, that p-value for the used magnitudes (differences) and mc (dmc), and for binned ones the mean of the p-values of n continuous versions in which each value lies in its bin; it lies between the bounds of statsmodels' p-values and, with mc on the grid of the magnitudes, never fails because of a value below mc. Before calculate it is an AttributeError. (Defects, proved: with mc off the grid there are draws for which it fails; magnitudes that also lie on a ten times coarser grid - all equal, or whole numbers in bins of 0.1 - are accepted by calculate but have no p-value; n = 0 gives NaN.)", "quantifier": "all samples, parameters, estimator classes, histories of the object and random draws", "why_tests_cant": "universally quantified over samples, histories and random draws", "anchors": ["seismostats/analysis/lilliefors.py:ks_test_gr_lilliefors", "seismostats/analysis/bvalue/base.py:p_lilliefors"]}
{"id": "C79", "title": "get_events from request to catalogue", "statement": "For a service that selects events by the filters and pages them by limit and offset, and whose responses arrive in full: get_events returns the events that match the request, in the order of the service, one row per event, each row being what parsing that event alone gives (the first event that cannot be read is the exception); with batch_size set to any positive number the catalogue (or exception) is the same as with one request, for any earlier calls on the same client, as long as limit and offset are not among the keywords; the catalogue is made by Catalog.from_dict with the column switches of the call, its start and end times are those of the call and no other attribute is set; a response that is not well-formed XML is an exception. (Defects, proved: for any schedule of losses, a response that ends before its document does, or one without events - an error page, whatever its status code - is taken for the whole answer: the call succeeds and the missing events are silently absent, in batches from the middle of the catalogue too; if the magnitudes chosen for the matching events all lack a value, a call with the default column switches fails with an AttributeError, while with include_ids=True the same events come back as a plain data frame.)", "quantifier": "all services (matching events, documents, losses of connections), arguments, batch sizes and histories of the client", "why_tests_cant": "universally quantified over services, documents, points at which a connection is lost and histories", "anchors": ["seismostats/catalogs/client.py:get_events", "seismostats/catalogs/client.py:_get_events_batched", "seismostats/io/parser.py:parse_quakeml_response", "seismostats/catalogs/catalog.py:from_dict", "seismostats/catalogs/catalog.py:drop_ids"]}
{"id": "C80", "title": "Binning of decimal numbers in floating point", "statement": "With every operation of bin_to_precision rounded to double precision, and the numbers and the bin size being the doubles nearest to decimal numbers (which mostly are not doubles): a number of up to 1000 bins is rounded to the nearest multiple of the bin size, upwards when it lies exactly between two, exactly as in exact arithmetic, and the result is the double nearest to that decimal multiple, so binned values can be compared with ==; a number within 0.4 bins of a multiple (a sum or difference of binned numbers) comes out as the double nearest to that multiple; binning never changes the order of two numbers; binning twice gives, to the last bit, what binning once gives. NaN stays NaN.", "quantifier": "all arrays, decimal numbers, bin sizes and numbers of decimals", "why_tests_cant": "universally quantified over decimal numbers and bin sizes; rounding errors differ for each of them", "anchors": ["seismostats/utils/binning.py:bin_to_precision", "seismostats/utils/binning.py:normal_round", "seismostats/utils/binning.py:_normal_round_to_int"]}
{"id": "C81", "title": "Rounding errors do not move events across the completeness magnitude", "statement": "With magnitudes, mc (dmc) and delta_m being the doubles nearest to numbers on a common grid, and every operation rounded to double precision: the events an estimator uses are exactly those at or above mc - the selection made in exact arithmetic; the differences used by the positive methods are exactly those of at least dmc and their values are the doubles nearest to the decimal differences; find_next_larger finds the same next larger event as in exact arithmetic. With delta_m = 0 the comparison is that of the two doubles. (Limit, proved: for mc halfway between two grid values, whether the lower one is used depends on the digits: with delta_m 0.1, 0.5 is used for mc 0.55 but 2.3 is not for mc 2.35.)", "quantifier": "all magnitudes, offsets, bin sizes and completeness magnitudes within 10^13 bins", "why_tests_cant": "universally quantified over decimal numbers; rounding errors differ for each of them", "anchors": ["seismostats/analysis/bvalue/base.py:_filter_magnitudes", "seismostats/analysis/avalue/base.py:_filter_magnitudes", "seismostats/analysis/bvalue/positive.py:_estimate", "seismostats/analysis/bvalue/utils.py:find_next_larger"]}
{"id": "C82", "title": "Frequency magnitude distribution in floating point", "statement": "With every operation rounded to double precision and decimal magnitudes and bin size: the bins returned by get_fmd are, as doubles, exactly the multiples of the bin size from the smallest to the largest binned magnitude - np.arange neither drops nor adds a bin - and each count is the exact number of magnitudes rounded to that bin, so the counts add up to the number of magnitudes, as in exact arithmetic; the same for magnitudes carrying noise of up to 0.4 bins; get_cum_fmd gives the exact number of magnitudes in the bin or above; estimate_mc_maxc returns the fullest bin (the lowest of several) plus the correction, and an estimator given this mc uses exactly the events of that bin and above although the sum need not be the double of a decimal number.", "quantifier": "all magnitudes within 1000 (noise: a million) bins of zero, bin sizes, corrections", "why_tests_cant": "universally quantified over decimal numbers and grids; np.arange and np.histogram edges carry different rounding errors for each of them", "anchors": ["seismostats/utils/binning.py:get_fmd", "seismostats/utils/binning.py:get_cum_fmd", "seismostats/analysis/estimate_mc.py:estimate_mc_maxc"]}
{"id": "C83", "title": "Candidate completeness magnitudes in floating point", "statement": "With every operation rounded to double precision: the default candidates of the completeness estimators are the doubles of the grid values from the smallest magnitude up without a gap, ending one bin below the largest magnitude or at it; the completeness magnitudes averaged by the stability test for a candidate select exactly the events of the candidate's bin, the next one and so on, and their number and the number by which the sum is divided are both r or r + 1 for a range of r bins, and equal when candidate + range is exact. (Defects, proved: the two numbers need not be equal: with delta_m 0.1 and the default range 0.5, six b-values are summed for the candidate 1.7 and the sum is divided by 5, so that the average is 6/5 of the common b-value and the candidate is wrongly rejected; whether the largest magnitude is itself a default candidate depends on the digits: not for magnitudes 0.1 to 0.3, but for 0.1 to 0.4.)", "quantifier": "all grids, candidates and ranges within a million bins", "why_tests_cant": "universally quantified over grids; the number of elements of np.arange depends on the rounding errors of each", "anchors": ["seismostats/analysis/estimate_mc.py:estimate_mc_b_stability", "seismostats/analysis/estimate_mc.py:estimate_mc_ks"]}
{"id": "C84", "title": "The binning test accepts binned magnitudes in floating point", "statement": "With every operation rounded to double precision: binning_test with its default tolerance accepts every array of doubles of decimal multiples of the bin size of absolute value up to 8 (NaN ignored), so that the estimators do not raise for correctly binned catalogues; and it rejects every array (up to 10) with an entry that is, counted from the smallest, further than 2e-14 from all multiples of the bin size. With check_larger_binning and a bin size that is a power of ten it fails if all magnitudes are multiples of the ten times larger bin size too, and succeeds if two of them do not differ by a multiple of it; a bin size below the tolerance is always accepted; without numbers, or with a bin size of at least the tolerance and below 1e-12, it is a ValueError. (Defect, proved: above 8 correctly binned magnitudes can be rejected: binning_test fails for [7.4, 8.2] with bin size 0.1, so the estimators raise 'Magnitudes are not binned correctly'.)", "quantifier": "all magnitude arrays and bin sizes with up to 12 decimals", "why_tests_cant": "universally quantified over decimal numbers; the tolerance of 1e-15 is of the size of the rounding errors", "anchors": ["seismostats/utils/binning.py:binning_test"]}
{"id": "C85", "title": "Assigned attributes of an estimator do not change its estimates", "statement": "After any sequence of calculate calls and attribute assignments, a b-value that can be read is what a new object returns for the arguments of the last successful call: assigning magnitudes, mc, delta_m, weights, times, idx or dmc changes that attribute (without any check) and neither b_value nor beta, respectively a_value; n becomes the number of assigned magnitudes. std of b-more-positive ignores assigned magnitudes, times and idx. (Defects, proved: after assigning magnitudes, std of the classic, Utsu and b-positive estimators combines the old b-value with the spread and number of the new magnitudes; assigning weights after a calculation without weights makes std of b-more-positive raise TypeError, or, if an earlier calculation had weights, silently resamples the present magnitudes with the weights of that earlier data set.)", "quantifier": "all histories of calls and assignments of one estimator object", "why_tests_cant": "quantifies over all sequences of calls and assignments", "anchors": ["seismostats/analysis/bvalue/base.py:BValueEstimator", "seismostats/analysis/bvalue/more_positive.py:_std_bootstrap", "seismostats/analysis/avalue/base.py:AValueEstimator"]}
{"id": "C86", "title": "The text of to_quakeml is read back, character by character", "statement": "The text that to_quakeml returns (header, indentation, tags and values as the template prints them) is read by parse_quakeml_file and by parse_quakeml without an exception, whatever the catalogue, and gives one record per row with coordinates and time, in order, with the contents of the row; for values free of markup that are single words this holds however the text is divided into read buffers, for values of several words when it is read in one piece; the number of records never depends on the buffers. A document written by others is read with exactly the characters meant, whether they are written themselves, by name, or by number in decimal or hexadecimal, in the content and in the identifier; a reference that means nothing or an attribute given twice is an error. (Defects, proved: values are not escaped, so that with an agency such as 'R & D' or 'a < b' nothing that is written can be read; the text of a value is stripped in each buffer, so that a value of several words that happens to be cut by the end of a 64 kB buffer loses its blank: the event type 'quarry blast' is read as 'quarryblast'.)", "quantifier": "all catalogues, all texts of the values, all divisions of the text into buffers", "why_tests_cant": "quantifies over all texts and all buffer boundaries; small test files always fit into one buffer", "anchors": ["seismostats/catalogs/catalog.py:Catalog.to_quakeml", "seismostats/catalogs/catalog_templates/quakeml.j2", "seismostats/io/parser.py:QuakeMLHandler", "seismostats/io/parser.py:parse_quakeml_file", "seismostats/io/parser.py:parse_quakeml"]}
{"id": "C87", "title": "QuakeML text cut at any character", "statement": "If the text written by to_quakeml is cut at any character (a crash while writing, a full disk), parse_quakeml raises for every non-empty proper beginning; parse_quakeml_file raises if the cut is within a tag, and otherwise returns exactly the records of the events whose end tag is still there - never a partial event, never a wrong value. (Limit, proved: a file cut between two tags is read without any error, the missing events are not noticed.)", "quantifier": "all catalogues, all positions of the cut, all divisions into buffers", "why_tests_cant": "quantifies over every crash point of the writing of every text", "anchors": ["seismostats/io/parser.py:parse_quakeml_file", "seismostats/io/parser.py:parse_quakeml", "seismostats/catalogs/catalog.py:Catalog.to_quakeml"]}
{"id": "C88", "title": "Catalog.from_quakeml and the way back from to_quakeml", "statement": "Catalog.from_quakeml accepts a path or a text; what to_quakeml has written comes back, with either, as a catalogue without attributes with one row per row with coordinates and time, in order: coordinates, depth, magnitude and quality values as numbers, the time parsed, types cleaned; a column of values is there exactly if some row has a value in it, uncertainties and identifiers exactly if they are asked for. A text without events gives an empty catalogue with the default columns. from_dict gives the content of C49, as a catalogue if there is a magnitude column or nothing is dropped. (Defects, proved: if no event has a magnitude, from_dict without uncertainties and identifiers - so from_quakeml with its default arguments - raises AttributeError, as dropping columns gives a plain data frame first; secondary magnitudes, uncertainties and depthphasecount stay texts, they are not converted to numbers.)", "quantifier": "all catalogues and texts, all settings of the switches, file or text, all buffers", "why_tests_cant": "composition of writer, XML reader, selection and constructor over all catalogues", "anchors": ["seismostats/catalogs/catalog.py:Catalog.from_quakeml", "seismostats/catalogs/catalog.py:Catalog.from_dict", "seismostats/catalogs/catalog.py:Catalog.__init__"]}
{"id": "C89", "title": "Catalog.estimate_b and estimate_a with the real estimators", "statement": "Catalog.estimate_b with any of the four estimator classes is that class's calculate on the rows: magnitudes, weights of the call or else of the column weight, times of the column time for b-positive and b-more-positive; it stores exactly the b-value and returns the estimator; the classic one is the maximum-likelihood value of the rows from mc - delta_m/2 on with their weights. estimate_a likewise stores the a-value; the classic one is the logarithm of the number of rows from mc - delta_m/2 on. The order of the rows does not matter for any class (with different times, for those that use them), as the times travel with the rows. a-positive and a-more-positive without a column of times raise TypeError. (Defects, proved: a column called dmc makes b-positive and b-more-positive raise ValueError; estimate_a with a-more-positive ignores the b-value stored in the catalogue and raises ValueError if none is given in the call.) (Limit, proved: a column called weights is ignored.)", "quantifier": "all catalogues, all classes, all arguments, all orders of the rows", "why_tests_cant": "equality of two computations over all catalogues and row orders", "anchors": ["seismostats/catalogs/catalog.py:Catalog.estimate_b", "seismostats/catalogs/catalog.py:Catalog.estimate_a", "seismostats/utils/_config.py", "seismostats/analysis/bvalue/base.py:BValueEstimator.calculate", "seismostats/analysis/avalue/base.py:AValueEstimator.calculate"]}
{"id": "C90", "title": "Plot methods of Catalog", "statement": "plot_cum_fmd, plot_fmd, plot_cum_count, plot_mc_vs_b, plot_in_space and plot_mags_in_time of a catalogue draw what the functions of the same name draw for its columns, with mc, delta_m and b-value of the call or else of the catalogue, and do not change the catalogue; without a needed column they raise AttributeError. In plot_cum_count an event without a magnitude counts as one below every completeness magnitude. The dots of plot_in_space grow with power 2 by default. (Defects, proved: a b-value estimated for a completeness magnitude given in the call of estimate_b is drawn by plot_cum_fmd from the smallest event on, as the completeness magnitude is not stored; plot_cum_count without completeness magnitudes draws nothing if the first event has no magnitude.) (Limit, proved: plot_mc_vs_b ignores the columns of weights and times that estimate_b uses.)", "quantifier": "all catalogues and arguments", "why_tests_cant": "composition of attribute handling, columns and plot data over all catalogues", "anchors": ["seismostats/catalogs/catalog.py:Catalog.plot_cum_fmd", "seismostats/catalogs/catalog.py:Catalog.plot_fmd", "seismostats/catalogs/catalog.py:Catalog.plot_cum_count", "seismostats/catalogs/catalog.py:Catalog.plot_mc_vs_b", "seismostats/catalogs/catalog.py:Catalog.plot_in_space", "seismostats/catalogs/catalog.py:Catalog.plot_mags_in_time"]}
{"id": "C91", "title": "The b-value in double precision", "statement": "For magnitudes given as the nearest doubles of multiples of the bin size (decimal, at least 10^-12), of at most 8, with a completeness magnitude on the same grid and any weights, ClassicBValueEstimator.calculate and UtsuBValueEstimator.calculate, computed with every operation rounded to double precision, give the exact value up to the relative error (9R + 4H + 22) * 1.2e-16 + 8 eta, where R is the largest magnitude in bins, H the number of additions on top of each other in a sum and eta the relative error of the logarithm, and the same exception, infinity or NaN in all other cases; the number of events does not matter otherwise. With at most two decimal places, pairwise summation and eta = 1e-15: at most 1e-12. For delta_m = 0 the same holds for arbitrary magnitudes (R = 1). The order in which numpy adds does not matter.", "quantifier": "all magnitudes on the grid, all completeness magnitudes, all weights, any number of events, all orders of summation, all logarithms with the given error", "why_tests_cant": "a bound on the accumulated rounding error over all inputs and summation orders", "anchors": ["seismostats/analysis/bvalue/base.py:BValueEstimator.calculate", "seismostats/analysis/bvalue/classic.py:_mle_estimator", "seismostats/analysis/bvalue/utsu.py:UtsuBValueEstimator._estimate"]}
{"id": "C92", "title": "The b-positive estimators in double precision", "statement": "For magnitudes given as the nearest doubles of multiples of the bin size (decimal, positive, at least 10^-12), of at most 8, with any times and weights and a dmc that is either a multiple of the bin size or the default (the bin size), BPositiveBValueEstimator.calculate and BMorePositiveBValueEstimator.calculate, computed with every operation rounded to double precision, pair the same events as in exact arithmetic and give the exact value up to the relative error of C91 with twice the range R of magnitudes in bins, and the same exception, infinity or NaN in all other cases. With at most two decimal places, pairwise summation and a logarithm accurate to 1e-15: at most 2e-12. No pair of events is lost or added because the difference of two doubles falls on the wrong side of the cut-off.", "quantifier": "all magnitudes on the grid, all times, weights and cut-offs, any number of events, all orders of summation, all logarithms with the given error, both estimators", "why_tests_cant": "whether a difference of two doubles passes the cut-off depends on the rounding of every pair of magnitudes, and the bound ranges over all inputs and summation orders", "anchors": ["seismostats/analysis/bvalue/positive.py:BPositiveBValueEstimator._estimate", "seismostats/analysis/bvalue/more_positive.py:BMorePositiveBValueEstimator._estimate", "seismostats/analysis/bvalue/utils.py:find_next_larger", "seismostats/analysis/bvalue/base.py:BValueEstimator.calculate"]}
{"id": "C93", "title": "Classes of rate grids and strip", "statement": "The result of any frame operation on a GRRateGrid or ForecastGRRateGrid (selection of rows or columns, copy, ...) is a plain data frame if one of the nine required columns is missing, a ForecastGRRateGrid if grid_id is also there, and a GRRateGrid otherwise; its cells are those of the selection. After any number of operations a result that is still a rate grid has the name, start and end time of the first object. strip gives a new object with exactly the columns that the class requires, all rows and cells, name and times, and leaves the object alone; in place it keeps the class too; without the nine columns it raises an AttributeError and changes nothing. strip of an object that was made by calling a class keeps its class: a forecast keeps grid_id. (Defects, proved: a GRRateGrid to which grid_id was added becomes a ForecastGRRateGrid in the next operation, but its strip drops grid_id and gives a GRRateGrid, because the required columns are copied like an attribute; n_grids is lost when grid_id is removed and added again.)", "quantifier": "all rate grids with any index, all operations and sequences of operations, strip in place or not", "why_tests_cant": "the class and the kept columns depend on the history of operations, of any length", "anchors": ["seismostats/catalogs/rategrid.py:_rategrid_constructor_with_fallback", "seismostats/catalogs/rategrid.py:GRRateGrid.strip", "seismostats/catalogs/rategrid.py:GRRateGrid.__finalize__", "seismostats/catalogs/rategrid.py:ForecastGRRateGrid.__init__"]}
{"id": "C94", "title": "Kolmogorov-Smirnov test in double precision", "statement": "With double precision arithmetic ks_test_gr (without weights) does not fail for magnitudes that are multiples of the bin size at or above the completeness magnitude and a positive b-value. With given distances, its distance differs from the KS distance that exact arithmetic gives over the same bins by at most (6R + 18) * 1.2e-16 + 5 eta, R being the number of bins between zero and the magnitudes and eta the accuracy of numpy's exp and log (below 1e-12 for R up to 1000 and eta 1e-15); no magnitude falls into a neighbouring bin and no bin is added or lost. The p-value counts exactly the distances that are not smaller, only distances within the error of the exact one can be counted differently. With simulated distances all samples are compared on the same bins, whose end agrees with the exact one up to 3 % of a bin, and each distance has the same error bound.", "quantifier": "all bin sizes j / 10^p, all multiples of the bin size up to a million, all positive b-values, all given distances (also NaN and infinite), all simulated samples on the grid", "why_tests_cant": "rounding errors depend on every magnitude, completeness magnitude and bin size; tests compare a few samples", "anchors": ["seismostats/analysis/estimate_mc.py:ks_test_gr", "seismostats/analysis/estimate_mc.py:cdf_discrete_exp", "seismostats/analysis/bvalue/utils.py:b_value_to_beta"]}
{"id": "C95", "title": "Probability law of simulated magnitudes", "statement": "If the random generator draws independent numbers that are uniform on [0,1) and standard exponential, then the magnitudes of simulate_magnitudes are independent, and each follows the exponential (Gutenberg-Richter) law with its beta above mc, truncated at mag_max if one (other than zero) is given. The magnitudes of simulate_magnitudes_binned are independent multiples of delta_m, and the probability of at most z * delta_m is that of the exponential law above mc - delta_m / 2 (truncated at mag_max if given) below the upper edge of this bin, less 1e-12 of a bin; with mc on the grid each bin has its Gutenberg-Richter probability up to beta * delta_m * 1e-12. b_parameter='beta' means the b-value beta / ln 10.", "quantifier": "all probability spaces and random generators with these laws, all sizes, all rates (one per magnitude), all mc, mag_max and bin widths of at least 1e-12", "why_tests_cant": "a distribution over infinitely many draws; tests compare means of a few samples", "anchors": ["seismostats/utils/simulate_distributions.py:simulate_magnitudes", "seismostats/utils/simulate_distributions.py:simulate_magnitudes_binned", "seismostats/utils/binning.py:bin_to_precision"]}
{"id": "C96", "title": "Estimators are strongly consistent on simulated magnitudes", "statement": "If the random generator draws independent standard exponential numbers, then for almost every sequence of draws the estimate for n magnitudes made by simulate_magnitudes_binned with b-value b is a finite number from some n on, whatever the estimator object did before, and converges for n to infinity: for unbinned magnitudes ClassicBValueEstimator, UtsuBValueEstimator and BPositiveBValueEstimator (any dmc >= 0) converge to b; for magnitudes binned with delta_m and mc on the grid, BPositiveBValueEstimator (dmc any positive multiple of delta_m, by default delta_m) converges to exactly b, and ClassicBValueEstimator to a number between (1 - 1e-12) b and b, the difference being due to the 1e-12 in the rounding of bin_to_precision. (Limit, proved: for binned magnitudes UtsuBValueEstimator converges to a number smaller than b.)", "quantifier": "all b-values, completeness magnitudes, bin widths of at least 1e-12, cutoffs, all probability spaces, almost all sequences of draws, all histories of the estimator", "why_tests_cant": "a limit for almost every infinite sequence of random numbers; tests compare one sample with a tolerance", "anchors": ["seismostats/analysis/bvalue/classic.py:ClassicBValueEstimator", "seismostats/analysis/bvalue/utsu.py:UtsuBValueEstimator", "seismostats/analysis/bvalue/positive.py:BPositiveBValueEstimator", "seismostats/utils/simulate_distributions.py:simulate_magnitudes_binned"]}
{"id": "C97", "title": "Reported standard deviation covers at its nominal rate", "statement": "If the random generator draws independent standard exponential numbers and n magnitudes are made by simulate_magnitudes_binned with b-value b and no binning, then for ClassicBValueEstimator and UtsuBValueEstimator, whatever the estimator object did before: almost surely sqrt(n) times the std read after calculate converges to b; and for every z > 0 the probability that b lies within z * std of the estimate converges for n to infinity to the probability that a standard normal variable is at most z in absolute value.", "quantifier": "all b-values, completeness magnitudes, all z > 0, all probability spaces with such draws, all histories of the estimator", "why_tests_cant": "a limit of probabilities over all samples; tests look at one sample of finite size", "anchors": ["seismostats/analysis/bvalue/base.py:BValueEstimator.std", "seismostats/analysis/bvalue/utils.py:shi_bolt_confidence", "seismostats/analysis/bvalue/classic.py:ClassicBValueEstimator", "seismostats/analysis/bvalue/utsu.py:UtsuBValueEstimator", "seismostats/utils/simulate_distributions.py:simulate_magnitudes_binned"]}
{"id": "C98", "title": "Maximum curvature is strongly consistent on binned magnitudes", "statement": "If the random generator draws independent standard exponential numbers and n magnitudes are made by simulate_magnitudes_binned with b-value b, bin width delta_m and mc on the grid, then almost surely, from some n on, estimate_mc_maxc with fmd_bin = delta_m returns exactly mc + correction_factor (if b * ln 10 * delta_m is at least 1e-11). For magnitudes that are not binned (delta_m = 0) and start at a grid point mc, it is mc + correction_factor from some n on if b * ln 10 * fmd_bin >= 1.5. (Limit, proved: for such magnitudes and b * ln 10 * fmd_bin <= 0.9 - so for b = 1 and fmd_bin = 0.1 - it is mc + fmd_bin + correction_factor, one bin too large, because the first bin of the histogram is only half filled.)", "quantifier": "all b-values, grid points mc, bin widths of at least 1e-12, corrections, all probability spaces with such draws, almost all sequences of draws", "why_tests_cant": "a limit for almost every infinite sequence of random numbers", "anchors": ["seismostats/analysis/estimate_mc.py:estimate_mc_maxc", "seismostats/utils/simulate_distributions.py:simulate_magnitudes_binned", "seismostats/utils/binning.py:get_fmd"]}
{"id": "C99", "title": "Standard deviation of the b-positive estimate covers at its nominal rate", "statement": "If the random generator draws independent standard exponential numbers and n magnitudes are made by simulate_magnitudes_binned with b-value b and no binning, then for BPositiveBValueEstimator with any dmc >= 0, whatever the estimator object did before: almost surely the number n of differences it reports grows without bound and sqrt(n) times the std read after calculate converges to b; and for every z > 0 the probability that b lies within z * std of the estimate converges, for the number of magnitudes to infinity, to the probability that a standard normal variable is at most z in absolute value - although the differences used are not independent and their number is random. With binned magnitudes (bin width delta_m, mc on the grid, dmc a positive multiple of delta_m, by default one bin) the coverage converges too, to the probability that a standard normal variable is at most z * ((x/2)/sinh(x/2))^2 in absolute value, x = b * ln 10 * delta_m, and sqrt(n) * std to b * (x/2)/sinh(x/2). (Limit, proved: this factor is below 1, so with binned magnitudes the reported std is too small and the coverage stays strictly below the nominal rate, whatever the size of the catalogue; for b = 1, delta_m = 0.1 the factor is about 0.996.)", "quantifier": "all b-values, completeness magnitudes, cutoffs dmc, all z > 0, all probability spaces with such draws, all histories of the estimator", "why_tests_cant": "a limit of probabilities over all samples; tests look at one sample of finite size", "anchors": ["seismostats/analysis/bvalue/positive.py:BPositiveBValueEstimator", "seismostats/analysis/bvalue/base.py:BValueEstimator.std", "seismostats/analysis/bvalue/utils.py:shi_bolt_confidence", "seismostats/utils/simulate_distributions.py:simulate_magnitudes_binned"]}
{"id": "C100", "title": "The mean autocorrelation of b_significant_1D has the expectation the function reports", "statement": "Moran's I of est_morans_i, averaged over all arrangements of the same values over the places that are not NaN, is exactly -1/n for every neighbour matrix the function accepts, and its variance over the arrangements is given by the numbers of neighbour pairs that share a place and that do not; for a series (the default matrix) the standard deviation is at most 1/sqrt(n_p). Hence, on magnitudes simulated with one b-value (independent draws, no binning, any times), b_significant_1D with the classic or the Utsu estimator almost surely returns numbers, the expectation of the returned mean autocorrelation is minus the mean over the offsets of 1/(number of windows), its variance is at most 1/(mean n_p), and with n_m fixed it tends to 0 in probability as the catalogue grows. (Limit, proved: the returned mu_mac = -1/mean(n) is the expectation only if n_m divides N + 1; otherwise it is larger, by at most 1/(4k(k-1)^2) with k = N // n_m.)", "quantifier": "all series and all accepted neighbour matrices, with NaNs at any places; all catalogue lengths N >= 4 n_m, n_m >= 2, b > 0, completeness magnitudes, times and options, all probability spaces carrying independent standard exponential draws", "why_tests_cant": "A statement about an expectation and about all n! arrangements; a test sees single draws.", "anchors": ["seismostats/analysis/b_significant.py:est_morans_i", "seismostats/analysis/b_significant.py:b_significant_1D", "seismostats/utils/simulate_distributions.py:simulate_magnitudes_binned"]}
{"id": "C101", "title": "The KS test rejects a true hypothesis at most at its nominal rate when the b-value is known", "statement": "If the sample and the n samples the function draws are made by simulate_magnitudes_binned with the same mc, bin width and b-value from independent draws, and that b-value is given to ks_test_gr, then with warnings off the probability that the p-value is at most k/n is at most (k+1)/(n+1) + 1/(1000 m n) for a sample of m magnitudes, for every k, m, n - ties between the distances included. Consequently estimate_mc_ks with a known b-value and the true mc among the candidates (all on the grid) returns a candidate not above the true mc, except for a probability of at most ceil(p_value_pass n)/(n+1) + 1/(1000 m n). (Defect, proved: with warnings on, the probability that all magnitudes of the sample are equal comes on top, because the function then returns p = 0; a sample of a single magnitude is always rejected.)", "quantifier": "all sample sizes, numbers of simulations, b-values, bin widths, candidate lists, all k, all probability spaces with independent standard exponential draws", "why_tests_cant": "a probability over all draws; a test sees single draws", "anchors": ["seismostats/analysis/estimate_mc.py:ks_test_gr", "seismostats/analysis/estimate_mc.py:estimate_mc_ks", "seismostats/utils/simulate_distributions.py:simulate_magnitudes_binned"]}
{"id": "C102", "title": "Dithering undoes binning, in law", "statement": "For given binned magnitudes that pass the binning test, the values returned by dither_magnitudes are independent random variables, the j-th one following the exponential law with rate b ln 10 truncated to the bin [m-delta_m/2, m+delta_m/2) of the j-th smallest magnitude m. For n magnitudes made by simulate_magnitudes_binned (mc on the grid) and dithered with the same b-value, from some n on both calls succeed and return n values, and for every x the fraction of values at most x converges almost surely, as n grows, to a number that differs from the distribution function at x of the exponential law above mc-delta_m/2 - the law of the magnitudes before binning - by at most b ln(10) delta_m 1e-12. No independence between the two generators is needed. (The bin width must not be within the uppermost tenth below a power of ten: there the two lowest levels alone do not pass the binning test.)", "quantifier": "all magnitude lists on a grid, all b-values, bin widths, all x, all probability spaces with random generators", "why_tests_cant": "a probability law and an almost sure limit; a test sees finitely many draws", "anchors": ["seismostats/utils/simulate_distributions.py:dither_magnitudes", "seismostats/utils/simulate_distributions.py:simulate_magnitudes_binned"]}
{"id": "C103", "title": "b-more-positive is strongly consistent on simulated magnitudes", "statement": "If the random generator draws independent standard exponential numbers, then for almost every sequence of draws the estimate of BMorePositiveBValueEstimator for n magnitudes made by simulate_magnitudes_binned with b-value b, bin width delta_m of at least 1e-12 and mc on the grid is a finite number from some n on, whatever the estimator object did before, and converges to exactly b for n to infinity, for every cutoff dmc that is a positive multiple of delta_m and for the default cutoff. The pairs used by this estimator share members and are not independent.", "quantifier": "all b-values, bin widths of at least 1e-12, grid positions of mc, cutoffs, all probability spaces, almost all sequences of draws, all histories of the estimator", "why_tests_cant": "a limit for almost every infinite sequence of random numbers; tests compare one sample with a tolerance", "anchors": ["seismostats/analysis/bvalue/more_positive.py:BMorePositiveBValueEstimator", "seismostats/analysis/bvalue/utils.py:find_next_larger", "seismostats/utils/simulate_distributions.py:simulate_magnitudes_binned"]}
{"id": "C104", "title": "Batched download from a service that changes or fails between requests", "statement": "For every schedule of changes of the service's list and of failing requests, get_events(batch_size >= 1) ends if the number of events stays bounded. If the list does not change, the result is made of events of the service, in its order, each at most once, whatever requests fail; if only probes fail it is a beginning of the list of at least one batch. If new events come only at the end of the list and nothing fails, the result is a gapless beginning of the list and contains every event that was there when the download began. With no change and no failure it is the download of C01. (Defects, proved for all lists and batch sizes: a probe answered by an error is taken for the end of the data: if the first probe fails at most two batches are returned, and a single failing probe in the bisection can leave the first batch only, each time without exception; an event that appears at the beginning of the list between two batches - the usual place, services list the latest event first - makes the last event of the batch come twice, and one that is withdrawn makes an event in the middle missing.)", "quantifier": "all services as functions of the request number, all schedules of failing probes and pages, all batch sizes", "why_tests_cant": "universally quantified over schedules of changes and failures during an unbounded number of requests", "anchors": ["seismostats/catalogs/client.py:_get_batch_count", "seismostats/catalogs/client.py:_exists_with_offset", "seismostats/catalogs/client.py:_get_events_batched"]}
{"id": "C105", "title": "The classic and the a-positive value are consistent", "statement": "For magnitudes simulated with b-value b at times whose waiting times are positive, independent, identically distributed with mean tau and finite variance (a renewal process, e.g. Poisson), independent of the magnitudes: almost surely the classic and the a-positive estimate of the first n events are numbers from some n on, and 10^a / n converges to 1; with the duration of the catalog in units of u as scaling_factor and reference magnitude m_ref, 10^a converges to (u / tau) 10^(-b (m_ref - mc)), the expected number of events of at least m_ref during u. This holds for magnitudes that are not binned with every dmc >= 0, and for binned magnitudes with mc on the grid and dmc a positive multiple of the bin width (by default one bin).", "quantifier": "all b > 0, mc, bin widths, dmc, reference magnitudes, units, laws of the waiting times with finite variance, almost all outcomes, all estimator objects", "why_tests_cant": "a limit over an unbounded number of events, for almost every outcome of a continuous random experiment", "anchors": ["seismostats/analysis/avalue/classic.py:ClassicAValueEstimator", "seismostats/analysis/avalue/positive.py:APositiveAValueEstimator", "seismostats/analysis/avalue/base.py:AValueEstimator._reference_scaling", "seismostats/utils/simulate_distributions.py:simulate_magnitudes_binned"]}
{"id": "C106", "title": "The a-more-positive value is consistent", "statement": "In the setting of C105, with the b-value of the simulation as b_value: almost surely the a-more-positive estimate of the first n events is a number from some n on. For magnitudes that are not binned and every dmc >= 0, 10^a / n converges to 1, and with scaling and reference magnitude as in C105 10^a converges to (u / tau) 10^(-b (m_ref - mc)). (Limit, proved: for binned magnitudes with mc on the grid and dmc a positive multiple of the bin width both limits are larger by the factor 10^(b delta_m / 10^12), because bin_to_precision rounds values just below a bin edge up; for bin widths used in practice this is below one part in 10^11.)", "quantifier": "all b > 0, mc, bin widths, dmc, reference magnitudes, units, laws of the waiting times with finite variance, almost all outcomes, all estimator objects", "why_tests_cant": "a limit over an unbounded number of events, for almost every outcome; the waiting times to the next larger event are dependent and have infinite mean", "anchors": ["seismostats/analysis/avalue/more_positive.py:AMorePositiveAValueEstimator", "seismostats/analysis/bvalue/utils.py:find_next_larger", "seismostats/utils/simulate_distributions.py:simulate_magnitudes_binned"]}
{"id": "C107", "title": "a-values with an estimated b-value are consistent", "statement": "In the setting of C105, with any b-values that converge almost surely to the b-value of the simulation given as b_value: almost surely each of the three a-value estimates of the first n events is a number from some n on, 10^a / n converges to 1, and with scaling and reference magnitude as in C105 10^a converges to (u / tau) 10^(-b (m_ref - mc)). So the workflow of estimating b and then a from the same events gives the rate of events: on magnitudes that are not binned with the classic, the Utsu or the b-positive estimate of b, on binned magnitudes with the b-positive or the b-more-positive one. (Limit, proved: for binned magnitudes the limits of a-more-positive have the factor of C106.)", "quantifier": "all b > 0, mc, bin widths, dmc, reference magnitudes, units, laws of the waiting times with finite variance, sequences of b-values, almost all outcomes, all estimator objects", "why_tests_cant": "a limit over an unbounded number of events, for almost every outcome of a continuous random experiment, and for every way of estimating b", "anchors": ["seismostats/analysis/avalue/more_positive.py:AMorePositiveAValueEstimator", "seismostats/analysis/avalue/base.py:AValueEstimator._reference_scaling", "seismostats/analysis/bvalue/positive.py:BPositiveBValueEstimator", "seismostats/analysis/bvalue/more_positive.py:BMorePositiveBValueEstimator", "seismostats/utils/simulate_distributions.py:simulate_magnitudes_binned"]}
{"id": "C108", "title": "Catalogue completeness searches work on the rows, and the workflow after them", "statement": "Catalog.estimate_mc_maxc, estimate_mc_ks and estimate_mc_b_stability compute, from the rows that have a magnitude and with delta_m (and for KS the b-value) of the call or else of the catalogue, exactly what the functions of estimate_mc compute (C36, C37, C38): the lowest of the fullest bins plus the correction (0.2 by default); the smallest candidate that passes the KS test, with the b-value of the call, else the stored one, else estimated from the events at or above the candidate; the most stable candidate. They store that mc and change nothing else; if they raise, the catalogue stays as it was. Other columns (times, weights), the order of the rows and rows without a magnitude do not matter (order: classic and Utsu class or a known b-value). After a search that found an mc, estimate_b and estimate_a without mc do what they do with this mc, and without a column of weights estimate_b finds exactly the b-value the search has reported. (Defects, proved: a NaN stored as b-value counts as known, and the KS search with simulated distances then raises ValueError; with warnings on a candidate above all magnitudes is a failed test from a catalogue but a ValueError from an array; a search that finds nothing replaces a stored mc by None, so that estimate_b and estimate_a raise ValueError.)", "quantifier": "all catalogues (rows, columns, stored values), candidate lists, options, warnings settings, classes of estimators, simulated samples", "why_tests_cant": "all catalogues and all orders of rows; agreement of two methods over every catalogue", "anchors": ["seismostats/catalogs/catalog.py:Catalog.estimate_mc_maxc", "seismostats/catalogs/catalog.py:Catalog.estimate_mc_ks", "seismostats/catalogs/catalog.py:Catalog.estimate_mc_b_stability", "seismostats/catalogs/catalog.py:Catalog.estimate_b", "seismostats/analysis/estimate_mc.py:ks_test_gr"]}
{"id": "C109", "title": "b-values above a completeness magnitude are consistent, whatever is missing below it", "statement": "Simulate n magnitudes with b-value b above mc and estimate b with a completeness magnitude mc' at or above mc, from any part of these events that contains all events at or above mc' - delta_m / 2: almost surely, from some n on the estimate is a number, the same one whatever events below are missing, and as n grows it converges to b: for the classic and the Utsu estimator on magnitudes that are not binned and every mc' >= mc, for the classic estimator on binned magnitudes and every mc' that is a bin above mc (there exactly to b, without the bias of 1e-12 of C96). (Limits, proved: with binned magnitudes the Utsu estimates converge to less than b; an mc' up to half a bin above a bin makes the classic estimates converge to more than b, less than half a bin below a bin to less than b.)", "quantifier": "all b > 0, mc, mc', bin widths, ways of missing events below mc', almost all outcomes, all estimator objects", "why_tests_cant": "a limit over an unbounded number of events, for almost every outcome of a continuous random experiment, and for every pattern of missing events", "anchors": ["seismostats/analysis/bvalue/classic.py:ClassicBValueEstimator", "seismostats/analysis/bvalue/utsu.py:UtsuBValueEstimator", "seismostats/analysis/bvalue/base.py:BValueEstimator._filter_magnitudes", "seismostats/utils/simulate_distributions.py:simulate_magnitudes_binned"]}
{"id": "C110", "title": "The workflow mc, b-value, a-value on a catalogue is consistent", "statement": "Put n magnitudes, simulated in bins of delta_m with b-value b above mc (a bin), into a catalogue without weights whose delta_m is the bin width, and call estimate_mc_maxc with fmd_bin=delta_m and a correction of one or more bins, then estimate_b() and then estimate_a with m_ref=mc, a scaling factor and the stored b-value. Almost surely, from some n on the catalogue has mc plus the correction as mc, and numbers as b_value and a_value, and nothing else has changed; as n grows the b-values converge to b, and 10 ** a_value times the scaling factor over n converges to exp(b ln(10) delta_m 1e-12), so to the number of simulated events up to the rounding of the bins. (Limit, proved: with a correction that is not a number of bins, such as the default 0.2 with bins of 0.3, the stored b-values converge to another number than b.)", "quantifier": "all b > 0, bins, mc on the bins, corrections of k >= 1 bins, scaling factors, catalogues with the magnitudes, warnings settings, almost all outcomes", "why_tests_cant": "a limit over an unbounded number of events, for almost every outcome of a continuous random experiment, through three methods of the catalogue", "anchors": ["seismostats/catalogs/catalog.py:Catalog.estimate_mc_maxc", "seismostats/catalogs/catalog.py:Catalog.estimate_b", "seismostats/catalogs/catalog.py:Catalog.estimate_a", "seismostats/analysis/estimate_mc.py:estimate_mc_maxc", "seismostats/utils/simulate_distributions.py:simulate_magnitudes_binned"]}
{"id": "C111", "title": "b-positive stays consistent when events are missing, as long as larger events are recorded", "statement": "Of simulated magnitudes (b-value b, in order of time) only some are recorded. Whether an event is recorded may depend on all magnitudes so far and on anything else that is independent of the later magnitudes; at least one event (at or above the mc of the call) is recorded, and an event that is at least dmc larger than the last recorded one (at or above mc) is always recorded, as during a time of incomplete recording after a large event. Then, almost surely, BPositiveBValueEstimator.calculate on the recorded magnitudes is a number from some size on and converges to b as the number of simulated events grows: without bins for every dmc >= 0, and with bins for every dmc of one or more bins and mc of the simulation on the bins. One such way of missing events is that every event smaller than the one before it is hidden. (Limit, proved: then ClassicBValueEstimator converges to two thirds of b.)", "quantifier": "all b > 0, mc, mc of the call, dmc >= 0 (bins: dmc = k bins, k >= 1), all detection rules that do not look ahead and record larger events, all estimator objects and warnings settings, almost all outcomes", "why_tests_cant": "ranges over all detection rules (an uncountable family of history dependent rules) and is a limit over an unbounded number of events for almost every outcome", "anchors": ["seismostats/analysis/bvalue/positive.py:BPositiveBValueEstimator", "seismostats/analysis/bvalue/base.py:BValueEstimator.calculate", "seismostats/analysis/bvalue/classic.py:ClassicBValueEstimator", "seismostats/utils/simulate_distributions.py:simulate_magnitudes_binned"]}
{"id": "C112", "title": "b-more-positive stays consistent when events are missing, as long as the next larger event is recorded", "statement": "Of simulated binned magnitudes (b-value b, mc of the simulation on the bins, in order of time) only some are recorded. Whether an event is recorded may depend on all magnitudes so far and on anything else that is independent of the later magnitudes; a positive share of the events is recorded (at or above the mc of the call), and for every recorded event the first later event that is at least dmc larger is recorded. Then, almost surely, BMorePositiveBValueEstimator.calculate on the recorded magnitudes is a number from some size on and converges to exactly b as the number of simulated events grows, for every dmc of one or more bins and for the default dmc. The condition of C111 with one bin (an event larger than the last recorded one is recorded) implies this condition for every dmc; in particular it holds if every event smaller than the one before it is hidden.", "quantifier": "all b > 0, bin widths, mc on the bins, mc of the call, dmc = k bins with k >= 1, all detection rules that do not look ahead, record a positive share and record the next larger event, all estimator objects and warnings settings, almost all outcomes", "why_tests_cant": "ranges over all detection rules (an uncountable family of history dependent rules) and is a limit over an unbounded number of events for almost every outcome", "anchors": ["seismostats/analysis/bvalue/more_positive.py:BMorePositiveBValueEstimator", "seismostats/analysis/bvalue/base.py:BValueEstimator.calculate", "seismostats/utils/simulate_distributions.py:simulate_magnitudes_binned"]}
{"id": "C113", "title": "The KS test detects magnitudes that do not follow the tested Gutenberg-Richter law", "statement": "For samples of growing size whose magnitudes lie on the bins from mc on and whose cumulative fractions converge to a distribution F that differs, in some bin, from the law tested (b-value and mc) by more than the tiny shift of the package's own simulated samples (e^{-x}(e^{x*1e-12}-1) with x = b ln10 delta_m), ks_test_gr returns p = 0 from some sample size on, almost surely, for every number n >= 1 of simulated samples and with warnings on or off; if the fractions only converge in probability, the probability of p != 0 tends to 0. In particular magnitudes simulated with a smaller b-value than the one tested, or a larger one (by a factor above about 1 + 3e-12), and magnitudes simulated above a larger mc than the one tested, are always detected. Hence estimate_mc_ks with the true b-value, stopping at the first pass, returns exactly the mc above which the magnitudes were simulated, with a probability whose limit is at least 1 - ceil(p_value_pass n)/(n+1): smaller candidates are rejected.", "quantifier": "all b-values, bin widths from 1e-12 on, numbers of simulated samples, laws of the data, candidate lists and all random generators", "why_tests_cant": "a limit over sample sizes, almost surely over the generator; a test sees one sample size and one seed", "anchors": ["seismostats/analysis/estimate_mc.py:ks_test_gr", "seismostats/analysis/estimate_mc.py:estimate_mc_ks", "seismostats/utils/simulate_distributions.py:simulate_magnitudes_binned"]}
{"id": "C114", "title": "b-values of magnitudes with a maximum magnitude", "statement": "For magnitudes simulated with b-value b between mc and a maximum magnitude (mag_max), without binning, the classic and the Utsu estimates converge almost surely to b / (1 - x/(e^x - 1)) with x = b ln(10) (mag_max - mc), for every estimator object whatever it was used for before and with warnings on or off; this limit decreases with the magnitude range and tends to b as the range grows. (Limit, proved: the estimators know no maximum magnitude, so this limit is always larger than b; for b = 1 and a range of one magnitude unit it is above 1.3.)", "quantifier": "all b-values, mc, maximum magnitudes other than 0, random generators and estimator histories", "why_tests_cant": "an almost sure limit over all sample sizes and generators", "anchors": ["seismostats/utils/simulate_distributions.py:simulate_magnitudes", "seismostats/analysis/bvalue/classic.py:ClassicBValueEstimator", "seismostats/analysis/bvalue/utsu.py:UtsuBValueEstimator"]}
{"id": "C115", "title": "Kijko-Smit is consistent on simulated catalogues with several completeness periods", "statement": "If magnitudes are simulated with b-value b (not binned) and the events fall into the periods of a completeness table whose magnitudes are at or above the lowest simulated one, then estimate_b_kijko_smit converges to b almost surely as the catalogue grows, and its standard deviation to 0; the distribution of the events over the periods is arbitrary (it may even depend on earlier magnitudes), as long as every period keeps receiving events. (Limits, proved: delta_m is not used for the b-value; with binned magnitudes and completeness magnitudes at left bin edges, as documented, the estimates converge to a number below b; with completeness magnitudes at bin centres the first complete bin is not counted and the limit, (1 - 10^(-b delta_m))/(delta_m ln 10), is lower still.)", "quantifier": "all b > 0, completeness tables (ascending magnitudes, descending years), year sequences known before the magnitudes, last_year, delta_m > 0, and almost every sequence of random draws", "why_tests_cant": "a statement about the limit of infinitely many events for every table and every way the events fall into the periods", "anchors": ["seismostats/analysis/bvalue/kijko_smit.py: estimate_b_kijko_smit", "seismostats/utils/simulate_distributions.py: simulate_magnitudes_binned"]}
{"id": "C116", "title": "a-values in double precision", "statement": "The a-value that calculate of the classic, positive and more-positive class computes in double precision agrees with the a-value in exact arithmetic: the same exception, NaN or infinity, or a number whose error is at most 4 r + (4 e + 8 u)(|a| + |b|(|m_ref| + |mc|) + |log10 scaling_factor|), where u = 1.2e-16 is the error of one operation, e the relative error of log10 and of powers of ten, and r the relative error of the estimated number of events: 0 for counting, (n + 4) u for the positive class, 2 e + (n + 5 + 21 |b|(8 + dmc + |mc|)) u for the more-positive class with n events. In practice (a million events, magnitudes up to 8 with two decimals, b up to 3) the error is at most 1e-9 + 1e-14 |a|. In particular the same events, pairs and waiting times are used, also when magnitudes lie exactly on mc or differ exactly by dmc.", "quantifier": "all catalogues with magnitudes on a decimal grid (bin size j/10^p >= 1e-12, magnitudes up to 8, NaN allowed), mc and dmc on the grid, all times, b-values, reference magnitudes, scaling factors, and all log10 and power functions with relative error e; also continuous magnitudes (delta_m = 0) of any size", "why_tests_cant": "rounding errors depend on every digit of the input; a test compares a few values with a tolerance", "anchors": ["seismostats/analysis/avalue/base.py: AValueEstimator.calculate", "seismostats/analysis/avalue/base.py: _reference_scaling", "seismostats/analysis/avalue/positive.py: _estimate", "seismostats/analysis/avalue/more_positive.py: _estimate"]}
{"id": "C117", "title": "Weighted b-values on simulated magnitudes", "statement": "For magnitudes simulated with a b-value and weights that are bounded, not negative and each known before its event (they may depend on places, times and earlier events, but not on the magnitude of their own event), the weighted classic and Utsu estimates converge, as the sum of the weights grows, to the same number as the estimates without weights: to the b-value of the simulation without binning, to the limits of C96 with binning. The reported standard deviation times the square root of the sum of the weights converges to the b-value. For fixed weights whose sum of squares divided by their sum tends to v, intervals of z reported standard deviations cover the b-value with a probability that tends to that of a standard normal variable being at most z/sqrt(v) in absolute value. (Limit, proved: weights that depend on their own magnitude bias the estimate. Defect, proved: the standard deviation takes the sum of the weights for the number of events, so equal weights k leave the estimate unchanged but change the coverage of the intervals: too small for k > 1, too large for k < 1.)", "quantifier": "all b-values, completeness magnitudes, bin sizes >= 1e-12, all bounded weights known before their event, almost every sequence of draws, all estimator objects", "why_tests_cant": "convergence and coverage are statements about infinitely many sample sizes and all random sequences and weights", "anchors": ["seismostats/analysis/bvalue/base.py: BValueEstimator.calculate", "seismostats/analysis/bvalue/classic.py: ClassicBValueEstimator._estimate", "seismostats/analysis/bvalue/utsu.py: UtsuBValueEstimator._estimate", "seismostats/analysis/bvalue/utils.py: shi_bolt_confidence", "seismostats/utils/simulate_distributions.py: simulate_magnitudes_binned"]}
{"id": "C118", "title": "The a-more-positive value is consistent although events are missing", "statement": "In the setting of C105 and C112 (random magnitudes and times; whether an event is recorded may depend on all magnitudes and times up to it; a positive share is recorded; for every recorded event the first later one that is at least dmc larger is recorded): the a-more-positive value of the recorded events with their times, any completeness magnitude, the b-value of the simulation, a reference magnitude m_ref and the duration of the record in units of u as scaling factor is almost surely a number from some size on, and 10^a converges to the true rate of all events, (u / tau) 10^(-b (m_ref - mc)), although events are missing. In particular this holds if all events smaller than the one before and within a dead time after it are missing. (Limit, proved: for binned magnitudes with mc on the grid and dmc a positive multiple of the bin width the limit is larger by the factor 10^(b delta_m / 10^12), as in C106.)", "quantifier": "all b > 0, mc, bin widths, cutoffs, completeness and reference magnitudes, units, laws of the waiting times with finite variance, ways of missing events that satisfy the condition, almost all outcomes, all estimator objects", "why_tests_cant": "a limit over an unbounded number of events, for almost every outcome and every way of missing events", "anchors": ["seismostats/analysis/avalue/more_positive.py:AMorePositiveAValueEstimator", "seismostats/analysis/bvalue/utils.py:find_next_larger", "seismostats/utils/simulate_distributions.py:simulate_magnitudes_binned"]}
{"id": "C119", "title": "Weichert is consistent on simulated catalogues with several completeness periods", "statement": "If binned magnitudes are simulated with b-value b and the years of the events are such that the share of the events since each completeness year is proportional to the time from that year to the end of the catalogue (rate constant in time; years known before the magnitudes), and last_year is the end of the catalogue, then estimate_b_weichert almost surely returns numbers from some size on, for any optimiser that finds the zero of a strictly decreasing function with a vanishing error: the estimates converge to b, their standard deviations to 0, the rate to the rate of all simulated events above the lowest completeness magnitude (relative error vanishing), and the a-value to its logarithm plus b times that magnitude if that magnitude is a left bin edge. (Defect, proved: with the default last_year, the last year with an event, the events of that year are used but its length is not part of the exposure; if the events are spread evenly over the whole years up to and including it and the completeness years differ, the estimates converge to a number above b.)", "quantifier": "all b > 0, bin widths, lowest magnitudes on the grid, completeness tables, sequences of years with the stated shares, optimisers, almost all random outcomes", "why_tests_cant": "a limit over unbounded catalogues, for almost every outcome", "anchors": ["seismostats/analysis/bvalue/weichert.py:estimate_b_weichert", "seismostats/utils/simulate_distributions.py:simulate_magnitudes_binned"]}
{"id": "C120", "title": "The b-value significance test keeps its level on long catalogues", "statement": "On magnitudes simulated with one b-value (not binned, any reference times), with windows of at least three magnitudes and the classic or the Utsu estimator, b_significant_1D almost surely returns numbers for every catalogue of at least four windows, and the p-value is the upper normal tail at (mac - mu_mac) / std_mac. As the catalogue grows (window length fixed), that standardised value converges in law to a centred normal law whose variance is at most one with the conservative deviation (and at most (100/81)^2 otherwise). So the test with the conservative deviation keeps its level: for every alpha below 1/2, the probability of p <= alpha is eventually below alpha plus any positive number, although the windows of different offsets overlap.", "quantifier": "all b > 0, lower magnitudes, window lengths of at least three, minimal numbers, reference times, keyword arguments, levels below 1/2; the limit over catalogue sizes", "why_tests_cant": "a limit over unbounded catalogues, for a probability", "anchors": ["seismostats/analysis/b_significant.py:b_significant_1D", "seismostats/analysis/b_significant.py:est_morans_i", "seismostats/utils/simulate_distributions.py:simulate_magnitudes_binned"]}
{"id": "C121", "title": "The b-value significance test finds a change of the b-value", "statement": "On simulated magnitudes (not binned, any reference times) whose b-value is b1 for the first part of the catalogue and b2 for the rest, the first part being a share lam of the events in the limit (0 < lam < 1), b_significant_1D with the classic or the Utsu estimator and windows of n >= 3 magnitudes almost surely returns numbers for all long catalogues; the mean autocorrelation converges to the share of the variance of the b-value, V / (V + (lam b1^2 + (1 - lam) b2^2) / (n - 2)) with V = lam (1 - lam) (b1 - b2)^2. So if b1 and b2 differ, the standardised value grows without bound and the p-value tends to zero: at every level alpha > 0, almost surely all long enough catalogues are found to vary significantly, with either deviation.", "quantifier": "all positive b-values, shares, places of the change, lower magnitudes, window lengths of at least three, minimal numbers, reference times, keyword arguments, levels; the limit over catalogue sizes", "why_tests_cant": "an almost sure limit over unbounded catalogues", "anchors": ["seismostats/analysis/b_significant.py:b_significant_1D", "seismostats/analysis/b_significant.py:est_morans_i", "seismostats/utils/simulate_distributions.py:simulate_magnitudes_binned"]}
{"id": "C122", "title": "Finite-sample mean and variance of the b-value estimates", "statement": "The b-value that the classic and the Utsu estimators return for n >= 2 magnitudes simulated with the b-value b (not binned) is almost surely a number, whatever the object was used for before, and its expectation is exactly b n / (n - 1): the estimate is too large on average, for every n. For n >= 3 its variance is exactly (b n / (n - 1))^2 / (n - 2). (Limits, proved: the estimators do not correct this bias, which is 100 % for two magnitudes, 11 % for ten and 2 % for fifty; with two magnitudes the variance is infinite.)", "quantifier": "all numbers of magnitudes, b > 0, lower magnitudes, states of the estimator object", "why_tests_cant": "an exact expectation over all random draws, for every sample size", "anchors": ["seismostats/analysis/bvalue/base.py:BValueEstimator.calculate", "seismostats/analysis/bvalue/classic.py:ClassicBValueEstimator", "seismostats/analysis/bvalue/utsu.py:UtsuBValueEstimator", "seismostats/utils/simulate_distributions.py:simulate_magnitudes_binned"]}
{"id": "C123", "title": "Selection and binning of complete events in double precision", "statement": "With doubles in place of exact numbers: (a) estimate_b_kijko_smit, for magnitudes on a grid and completeness magnitudes on the grid or half-way between grid values, selects for every row of the completeness table exactly the events that exact arithmetic selects; (b) estimate_b_weichert, for magnitudes on a grid of a multiple of 0.01 (0.01 to 0.3), completeness magnitudes half a step off the grid with the lowest in the first row and mag_max half a step above the last bin, groups the complete events into the same bins with the same counts and start years as exact arithmetic, and every left edge it goes on with is the double nearest to the exact edge, although numpy.arange accumulates rounding errors and pandas rounds its labels. (Defect, proved: with a completeness magnitude on the magnitudes' grid, which the alignment assertion never rejects, an event of magnitude 3.3 is counted in the bin that starts at 3.2, since the edge 3.3 is computed as 3.3000000000000003.)", "quantifier": "all grids, completeness tables, catalogues and years, up to 1000 bins", "why_tests_cant": "rounding errors depend on every start, step and number of bins", "anchors": ["seismostats/analysis/bvalue/weichert.py:estimate_b_weichert", "seismostats/analysis/bvalue/kijko_smit.py:estimate_b_kijko_smit"]}
{"id": "C124", "title": "Missing magnitudes in the estimators with varying completeness", "statement": "estimate_b_kijko_smit ignores events whose magnitude is NaN: it returns what it returns for the other events alone with the last year of all events given explicitly (events without magnitude do count for the default last_year). estimate_b_weichert likewise ignores such events if they are older than the last row of the completeness table. (Defect, proved: a single event with magnitude NaN in or after the year of the last row makes estimate_b_weichert fail with an AttributeError, whatever the other events are.)", "quantifier": "all catalogues with missing magnitudes, completeness tables, parameters and optimisers", "why_tests_cant": "where the missing magnitudes lie relative to the completeness table decides", "anchors": ["seismostats/analysis/bvalue/kijko_smit.py:estimate_b_kijko_smit", "seismostats/analysis/bvalue/weichert.py:estimate_b_weichert"]}
{"id": "C125", "title": "Calendar years in the estimators with varying completeness", "statement": "The year that estimate_b_kijko_smit and estimate_b_weichert find for a time is its Gregorian calendar year, leap years included, also before 1970: an event belongs to the year y exactly if its time is at or after midnight of 1 January of y and before that of y + 1, to the nanosecond. Consequently an event is used for row i of the completeness table (Kijko and Smit) exactly if i rows begin after it and its magnitude is above that of the row, and is complete (Weichert) exactly if its completeness year begins at or before it. (Limit, proved: fractional completeness years count from the next 1 January: with 1990.1 an event of 31 December 1990 is not complete.)", "quantifier": "all times (nanoseconds, any integer), completeness tables and catalogues; every assignment of first days to years that follows the leap year rule", "why_tests_cant": "every day of every year, with the rules for multiples of 4, 100 and 400", "anchors": ["seismostats/analysis/bvalue/weichert.py:estimate_b_weichert", "seismostats/analysis/bvalue/kijko_smit.py:estimate_b_kijko_smit"]}
{"id": "C126", "title": "Missing magnitudes in the searches for the completeness magnitude", "statement": "With mcs_test given, estimate_mc_ks called with an array of magnitudes that contains NaN returns what it returns for the array without the NaN entries, whatever the b-value, b-value method, stopping rule and warnings. Without NaN, estimate_mc_ks and estimate_mc_b_stability are those of C36 and C38. (Defects, proved: with the default mcs_test a single NaN makes estimate_mc_ks fail with a ValueError; a single NaN makes estimate_mc_b_stability fail with a ValueError, whatever mcs_test is. As the column of a Catalog the same magnitudes are accepted, and estimate_mc_maxc drops the NaN itself.)", "quantifier": "all arrays of magnitudes with any number of NaN, all arguments, all simulated samples and weight draws", "why_tests_cant": "NaN at any position, combined with every other argument", "anchors": ["seismostats/analysis/estimate_mc.py:estimate_mc_ks", "seismostats/analysis/estimate_mc.py:estimate_mc_b_stability"]}
{"id": "C127", "title": "Missing times in declustering", "statement": "GardnerKnopoffType1 on a catalogue (default index, fs_time_prop >= 0) in which times are missing flags every event without a time as a mainshock, and gives all other events the flags that they have in the catalogue without those events. Without missing times it is the declustering of C44.", "quantifier": "all catalogues with a default index and any missing times, magnitudes and coordinates, all windows of the package, fs_time_prop >= 0", "why_tests_cant": "NaT at any rows, in any combination with other missing values and ties", "anchors": ["seismostats/analysis/declustering/dec_gardner_knopoff.py:GardnerKnopoffType1"]}
{"id": "C128", "title": "Missing coordinates and magnitudes on the map", "statement": "plot_in_space (without country) on a catalogue with missing coordinates or magnitudes, whose first event has both coordinates: the dots are at the coordinates of the events, the map shows the range of the known longitudes and latitudes with five percent on each side (and the region of the given axes), and every event with both coordinates lies on it. With a Series of magnitudes, as the Catalog method has, events with a magnitude have the sizes that dot_size gives without the others, events without one have none. If nothing is missing, it is the map of C72. (Defects, proved: if the longitude or latitude of the first event is missing, set_extent is given NaN for these limits, or with axes given the limits of these axes, wherever the other events are; with an array of magnitudes, one missing magnitude takes the size of all dots.)", "quantifier": "all lists of coordinates and magnitudes with any values missing, all dot sizes and powers, all given axes", "why_tests_cant": "missing values at any positions, in any combination with given axes and kinds of arguments", "anchors": ["seismostats/plots/seismicity.py:plot_in_space", "seismostats/plots/basics.py:dot_size"]}
{"id": "C129", "title": "Missing times in the b-positive and a-positive estimators", "statement": "In BPositiveBValueEstimator and BMorePositiveBValueEstimator an event without a time is treated as if its time was later than all known times: result and attributes (other than times) are those of the call with any such time in place of the missing ones; without missing times the call is that of C22 and C25. In the two a-positive estimators times that are missing at events that are not used (below the completeness magnitude or without a magnitude) have no effect. (Limits, proved: an event without a time is not dropped by the b-positive estimators: the difference to it counts; the a-positive and a-more-positive value are NaN if a single used event has no time.)", "quantifier": "all magnitudes, times with any of them missing, weights, cutoffs, states of the estimator and settings of the warnings", "why_tests_cant": "NaT at any rows, in any combination with missing magnitudes, ties and calls that fail", "anchors": ["seismostats/analysis/bvalue/positive.py:BPositiveBValueEstimator", "seismostats/analysis/bvalue/more_positive.py:BMorePositiveBValueEstimator", "seismostats/analysis/avalue/positive.py:APositiveAValueEstimator", "seismostats/analysis/avalue/more_positive.py:AMorePositiveAValueEstimator"]}
{"id": "C130", "title": "Missing magnitudes in the plot of cumulative counts", "statement": "plot_cum_count with mcs given draws the lines of the events with a magnitude alone; only the first and last point of a line are at the first and last time of all events, so that nothing changes if the events with a magnitude span the times of all events. With the default mcs the same holds as long as the first event of the arrays has a magnitude: the line is that of the smallest magnitude. Without missing magnitudes the plot, errors included, is that of C65. (Defect, proved: if the magnitude of the first event is NaN, the default plot is empty, whatever the other events are; a NaN at any other place does no harm.)", "quantifier": "all times, magnitudes with any of them missing, weights, completeness magnitudes, bin sizes and colours", "why_tests_cant": "the order of the events decides whether a missing magnitude matters", "anchors": ["seismostats/plots/basics.py:plot_cum_count", "seismostats/catalogs/catalog.py:Catalog.plot_cum_count"]}
{"id": "C131", "title": "Missing magnitudes in the frequency magnitude distributions", "statement": "Without missing magnitudes get_fmd and get_cum_fmd are those of C09 and C10, errors included; plot_fmd and plot_cum_fmd without weights draw the events with a magnitude. (Limit, proved: a single NaN makes get_fmd, and get_cum_fmd with a bin size other than zero, fail with a ValueError, whatever the other arguments are. Defect, proved: with fmd_bin = 0 get_cum_fmd does not reject NaN: it returns NaN as an additional last magnitude, and every cumulative count is too large by the number, or total weight, of the missing magnitudes compared with the result for the other events; plot_fmd and plot_cum_fmd drop missing magnitudes but not their weights, so that with weights, one per event, a single NaN makes them fail with a ValueError.)", "quantifier": "all magnitudes with any of them missing, weights, bin sizes and bin positions", "why_tests_cant": "NaN at any place, with any weights, in any of the branches", "anchors": ["seismostats/utils/binning.py:get_fmd", "seismostats/utils/binning.py:get_cum_fmd", "seismostats/plots/basics.py:plot_fmd", "seismostats/plots/basics.py:plot_cum_fmd"]}
{"id": "C132", "title": "Missing magnitudes in the test for a variation of the b-value", "statement": "b_significant_1D ignores events whose magnitude is NaN: it returns, errors included, what it returns for the other events alone, with one completeness magnitude for all events with or without x_variable, and with one completeness magnitude per event in the given order.", "quantifier": "all catalogues with any magnitudes missing, times, completeness magnitudes, values of x_variable, window sizes, methods and settings", "why_tests_cant": "missing magnitudes at any place shift the windows; sorting by x_variable with ties", "anchors": ["seismostats/analysis/b_significant.py:b_significant_1D"]}
